import Verif.Wait.Model
import Verif.Fd.Lemmas

/-!
# Waiting for a descriptor (C99)
-/

namespace Verif.Wait

open Verif.Fd

/-- The descriptor is registered for a task that is suspended for it, or not at all. -/
def Reg (maxFd : Nat) (s : St) (fd : Nat) : Prop :=
  ((s.ev.tgt fd).loopId = 0 ∧ (s.ev.tgt fd).loop = none) ∨
  ∃ l w, (s.ev.tgt fd).loopId = l + 1 ∧ (s.ev.tgt fd).loop = some (l + 1) ∧ (s.ev.tgt fd).events = (bits w).setWidth 8 ∧
    s.waits (s.ev.tgt fd).cb = some (l, fd, w) ∧ fd < maxFd ∧
    ∀ m, s.ev.kset (l + 1) fd = some m → m = epollMask (bits w)

structure Inv (maxFd : Nat) (s : St) : Prop where
  reg : ∀ fd, Reg maxFd s fd
  nosig : ∀ fd, (s.ev.tgt fd).sigSet = false

theorem bits_and (w : Bool) : (bits w ||| ADD) &&& RW = bits w := by cases w <;> decide
theorem bits_del (w : Bool) : (bits w ||| ADD) &&& DEL = 0 := by cases w <;> decide
theorem bits_ne (w : Bool) : bits w ≠ 0 := by cases w <;> decide
theorem bits_mask (w : Bool) : epollMask (bits w ||| ADD) = epollMask (bits w) := by cases w <;> decide
theorem bits_low (w : Bool) : (bits w ||| ADD).setWidth 8 = (bits w).setWidth 8 := by cases w <;> decide
theorem bits_rw (w : Bool) : ((bits w).setWidth 8 : BitVec 8) &&& 3 ≠ 0 := by cases w <;> decide
theorem bits_sign (w : Bool) : (DEL &&& RW : BitVec 32) ≠ ((bits w).setWidth 8 : BitVec 8).signExtend 32 := by
  cases w <;> decide

/-- What `events_add` does for `async_wait`. -/
theorem addFd_eq {maxFd : Nat} {s : Fd.St} {l fd t : Nat} {w : Bool} (hfd : fd < maxFd) :
    addFd maxFd s (l + 1) fd (bits w) t =
      if s.opn fd then some (0, { (setTgt (setK s (l + 1) fd (some (epollMask (bits w)))) fd
          { s.tgt fd with cb := t, loop := some (l + 1), loopId := l + 1, events := (bits w).setWidth 8 }) with
            active := Function.update s.active (l + 1) (s.active (l + 1) + 1) }) else none := by
  unfold addFd updateInternal kernelUpdate
  simp only [if_pos hfd, bits_and, bits_del, bits_ne, bits_mask, bits_low]
  have h0 : ¬ bits w = (0 : BitVec 8).signExtend 32 := by
    have : (0 : BitVec 8).signExtend 32 = 0 := by decide
    rw [this]; exact bits_ne w
  simp only [setTgt, setK, Function.update_self, ne_eq, not_true_eq_false, if_false, h0]
  by_cases ho : s.opn fd = true <;> simp [ho]

/-- `events_add` of a descriptor out of range. -/
theorem addFd_out {maxFd : Nat} {s : Fd.St} {l fd t : Nat} {w : Bool} (hfd : ¬ fd < maxFd) :
    addFd maxFd s (l + 1) fd (bits w) t = some (-1, s) := by
  unfold addFd
  rw [if_neg hfd]

/-- What `events_del` does in `wait_cb`. -/
theorem delFd_eq {maxFd : Nat} {s : Fd.St} {l fd : Nat} {w : Bool} (hfd : fd < maxFd) (hs : (s.tgt fd).sigSet = false)
    (hl : (s.tgt fd).loop = some (l + 1)) (hi : (s.tgt fd).loopId = l + 1)
    (he : (s.tgt fd).events = (bits w).setWidth 8) :
    delFd maxFd s fd = some (0, setTgt { s with active := Function.update s.active (l + 1) (s.active (l + 1) - 1) } fd
      { s.tgt fd with events := DEL.setWidth 8, loopId := 0, loop := none }) := by
  unfold delFd delIo updateInternal kernelUpdate
  rw [if_pos hfd, if_neg (by rw [hs]; simp), hl]
  simp only [hi, he, ne_eq, not_true_eq_false, if_false, bits_sign]
  rw [if_pos (by decide)]
  simp [setTgt, Function.update_idem]

/-- The event of a registered descriptor. -/
theorem dispatch_reg {maxFd : Nat} {s : St} (i : Inv maxFd s) {l fd : Nat} {mask : BitVec 32}
    (hi : (s.ev.tgt fd).loopId = l + 1) (hm : revents mask ≠ 0) :
    ∃ s', dispatch maxFd s l fd mask = some s' ∧ Inv maxFd s' ∧ s'.waits = Function.update s.waits (s.ev.tgt fd).cb none ∧
      s'.woken = s.woken ++ [(s.ev.tgt fd).cb] ∧ (s'.ev.tgt fd).loopId = 0 ∧ (∀ x, x ≠ fd → s'.ev.tgt x = s.ev.tgt x) ∧
      s'.ev.kset = s.ev.kset ∧ s'.ev.opn = s.ev.opn := by
  obtain h | ⟨l', w, h1, h2, h3, h4, h5, h6⟩ := i.reg fd
  · rw [hi] at h; exact absurd h.1 (by omega)
  obtain rfl : l' = l := by omega
  unfold dispatch waitCb
  rw [if_pos ⟨hi.symm, by rw [h3]; exact bits_rw w⟩, if_pos hm, delFd_eq h5 (i.nosig fd) h2 hi h3]
  refine ⟨_, rfl, ⟨fun x => ?_, fun x => ?_⟩, rfl, rfl, ?_, fun x hx => ?_, rfl, rfl⟩
  · by_cases hx : x = fd
    · subst hx
      left
      simp [setTgt]
    · obtain k | ⟨m, v, k1, k2, k3, k4, k5, k6⟩ := i.reg x
      · left; simpa [setTgt, Function.update_of_ne hx] using k
      · right
        refine ⟨m, v, ?_⟩
        simp only [setTgt, Function.update_of_ne hx]
        refine ⟨k1, k2, k3, ?_, k5, k6⟩
        rw [Function.update_of_ne ?_]
        · exact k4
        · intro e; rw [e, h4] at k4; simp at k4; exact hx k4.2.1.symm
  · by_cases hx : x = fd
    · subst hx; simp [setTgt, i.nosig]
    · simp [setTgt, Function.update_of_ne hx, i.nosig]
  · simp [setTgt]
  · simp [setTgt, Function.update_of_ne hx]

/-- The event of a descriptor that is not registered with this loop, or an event without any of the three bits. -/
theorem dispatch_off {maxFd : Nat} {s : St} (i : Inv maxFd s) {l fd : Nat} {mask : BitVec 32}
    (h : (s.ev.tgt fd).loopId ≠ l + 1 ∨ revents mask = 0) :
    ∃ s', dispatch maxFd s l fd mask = some s' ∧ Inv maxFd s' ∧ s'.waits = s.waits ∧ s'.woken = s.woken ∧
      s'.ev.tgt = s.ev.tgt ∧ s'.ev.opn = s.ev.opn ∧ ∀ k x m, s'.ev.kset k x = some m → s.ev.kset k x = some m := by
  unfold dispatch
  by_cases hc : l + 1 = (s.ev.tgt fd).loopId ∧ (s.ev.tgt fd).events &&& 3 ≠ 0
  · rw [if_pos hc, if_neg (by intro e; exact h.elim (fun k => k hc.1.symm) e)]
    exact ⟨s, rfl, i, rfl, rfl, rfl, rfl, fun _ _ _ h => h⟩
  · rw [if_neg hc]
    have hk : ∀ k x m, (setK s.ev (l + 1) fd none).kset k x = some m → s.ev.kset k x = some m := by
      intro k x m hm
      by_cases hk : k = l + 1
      · subst hk
        by_cases hx : x = fd
        · subst hx; simp [setK] at hm
        · simpa [setK, Function.update_of_ne hx] using hm
      · simpa [setK, Function.update_of_ne hk] using hm
    refine ⟨_, rfl, ⟨fun x => ?_, i.nosig⟩, rfl, rfl, rfl, rfl, hk⟩
    obtain k | ⟨m, v, k1, k2, k3, k4, k5, k6⟩ := i.reg x
    · exact .inl k
    · exact .inr ⟨m, v, k1, k2, k3, k4, k5, fun m hm => k6 m (hk _ _ _ hm)⟩

theorem dispatch_inv {maxFd : Nat} {s : St} (i : Inv maxFd s) (l fd : Nat) (mask : BitVec 32) :
    ∃ s', dispatch maxFd s l fd mask = some s' ∧ Inv maxFd s' := by
  by_cases h : (s.ev.tgt fd).loopId ≠ l + 1 ∨ revents mask = 0
  · obtain ⟨s', e, j, _⟩ := dispatch_off i h
    exact ⟨s', e, j⟩
  · push Not at h
    obtain ⟨s', e, j, _⟩ := dispatch_reg i h.1 h.2
    exact ⟨s', e, j⟩

/-- A suspended task that `s` has in no registration stays suspended. -/
def Lost (s : St) (t : Nat) : Prop := (s.waits t).isSome ∧ ∀ fd, (s.ev.tgt fd).loopId ≠ 0 → (s.ev.tgt fd).cb ≠ t

theorem dispatch_lost {maxFd : Nat} {s s' : St} (i : Inv maxFd s) {l fd t : Nat} {mask : BitVec 32} (h : Lost s t)
    (e : dispatch maxFd s l fd mask = some s') : Lost s' t ∧ s'.woken.count t = s.woken.count t := by
  by_cases hc : (s.ev.tgt fd).loopId ≠ l + 1 ∨ revents mask = 0
  · obtain ⟨s1, e1, _, h1, h2, h3, _⟩ := dispatch_off i hc
    rw [e] at e1; injection e1 with e1; subst e1
    exact ⟨⟨by rw [h1]; exact h.1, by rw [h3]; exact h.2⟩, by rw [h2]⟩
  · push Not at hc
    obtain ⟨s1, e1, _, h1, h2, h3, h4, _⟩ := dispatch_reg i hc.1 hc.2
    rw [e] at e1; injection e1 with e1; subst e1
    have hne := h.2 fd (by omega)
    refine ⟨⟨by rw [h1, Function.update_of_ne hne.symm]; exact h.1, fun x hx => ?_⟩, ?_⟩
    · by_cases hxf : x = fd
      · subst hxf; exact absurd h3 hx
      · rw [h4 x hxf] at hx ⊢; exact h.2 x hx
    · rw [h2, List.count_append, List.count_singleton]; simp [hne]

theorem poll_inv {maxFd l : Nat} : ∀ {batch : List (Nat × BitVec 32)} {s : St}, Inv maxFd s →
    ∃ s', poll maxFd l s batch = some s' ∧ Inv maxFd s'
  | [], s, i => ⟨s, rfl, i⟩
  | e :: es, s, i => by
    obtain ⟨s1, h1, i1⟩ := dispatch_inv i l e.1 e.2
    obtain ⟨s2, h2, i2⟩ := poll_inv (l := l) (batch := es) i1
    exact ⟨s2, by simp only [poll, h1, Option.bind_some, h2], i2⟩

theorem poll_lost {maxFd l t : Nat} : ∀ {batch : List (Nat × BitVec 32)} {s s' : St}, Inv maxFd s → Lost s t →
    poll maxFd l s batch = some s' → Lost s' t ∧ s'.woken.count t = s.woken.count t
  | [], s, s', _, h, e => by
    simp only [poll] at e; injection e with e; subst e; exact ⟨h, rfl⟩
  | x :: xs, s, s', i, h, e => by
    obtain ⟨s1, h1, i1⟩ := dispatch_inv i l x.1 x.2
    simp only [poll, h1, Option.bind_some] at e
    obtain ⟨k1, k2⟩ := dispatch_lost i h h1
    obtain ⟨j1, j2⟩ := poll_lost i1 k1 e
    exact ⟨j1, j2.trans k2⟩

/-- The state after a wait that is not a failed assertion. -/
theorem wait_inv {maxFd : Nat} {s s' : St} (i : Inv maxFd s) {l t fd : Nat} {w : Bool} (hw : s.waits t = none)
    (e : asyncWait maxFd s l t fd w = some s') :
    Inv maxFd s' ∧ s'.waits = Function.update s.waits t (some (l, fd, w)) ∧ s'.woken = s.woken ∧
      (∀ x, x ≠ fd → s'.ev.tgt x = s.ev.tgt x) ∧
      (fd < maxFd → (s'.ev.tgt fd).cb = t ∧ (s'.ev.tgt fd).loopId = l + 1) ∧
      (¬ fd < maxFd → s'.ev = s.ev) ∧ s'.ev.opn = s.ev.opn := by
  have hne : ∀ x l' w', s.waits (s.ev.tgt x).cb = some (l', x, w') → (s.ev.tgt x).cb ≠ t := by
    intro x l' w' h1 h2; rw [h2, hw] at h1; exact absurd h1 (by simp)
  unfold asyncWait at e
  rw [hw] at e
  simp only at e
  by_cases hfd : fd < maxFd
  · rw [addFd_eq hfd] at e
    split at e
    · simp only [Option.map_some] at e
      injection e with e
      subst e
      refine ⟨⟨fun x => ?_, fun x => ?_⟩, rfl, rfl, fun x hx => ?_, fun _ => ?_, fun h => absurd hfd h, rfl⟩
      · by_cases hx : x = fd
        · subst hx
          right
          refine ⟨l, w, ?_⟩
          simp only [setTgt, setK, Function.update_self, true_and]
          exact ⟨hfd, fun m hm => by injection hm with hm; exact hm.symm⟩
        · obtain k | ⟨m, v, k1, k2, k3, k4, k5, k6⟩ := i.reg x
          · left; simpa [setTgt, setK, Function.update_of_ne hx] using k
          · right
            refine ⟨m, v, ?_⟩
            simp only [setTgt, setK, Function.update_of_ne hx]
            refine ⟨k1, k2, k3, ?_, k5, fun q hq => ?_⟩
            · rw [Function.update_of_ne (hne x _ _ k4)]; exact k4
            · by_cases hml : m + 1 = l + 1
              · rw [hml, Function.update_self, Function.update_of_ne hx] at hq
                rw [← hml] at hq; exact k6 q hq
              · rw [Function.update_of_ne hml] at hq; exact k6 q hq
      · by_cases hx : x = fd
        · subst hx; simp [setTgt, setK, i.nosig]
        · simp [setTgt, setK, Function.update_of_ne hx, i.nosig]
      · simp [setTgt, setK, Function.update_of_ne hx]
      · simp [setTgt]
    · simp at e
  · rw [addFd_out hfd] at e
    simp only [Option.map_some] at e
    injection e with e
    subst e
    refine ⟨⟨fun x => ?_, i.nosig⟩, rfl, rfl, fun _ _ => rfl, fun h => absurd h hfd, fun _ => rfl, rfl⟩
    obtain k | ⟨m, v, k1, k2, k3, k4, k5, k6⟩ := i.reg x
    · exact .inl k
    · refine .inr ⟨m, v, k1, k2, k3, ?_, k5, k6⟩
      show Function.update s.waits t _ (s.ev.tgt x).cb = _
      rw [Function.update_of_ne (hne x _ _ k4)]; exact k4

theorem step_inv {maxFd : Nat} {s s' : St} {x : Step} (i : Inv maxFd s) (e : step maxFd s x = some s') : Inv maxFd s' := by
  cases x with
  | wait l t fd w =>
    simp only [step] at e
    cases hw : s.waits t with
    | some v => simp only [asyncWait, hw] at e; injection e with e; subst e; exact i
    | none => exact (wait_inv i hw e).1
  | poll l batch =>
    obtain ⟨s1, h1, i1⟩ := poll_inv (l := l) (batch := batch) i
    simp only [step, h1] at e
    injection e with e; subst e; exact i1
  | open_ fd =>
    simp only [step] at e; injection e with e; subst e
    exact ⟨i.reg, i.nosig⟩
  | close fd =>
    simp only [step] at e; injection e with e; subst e
    refine ⟨fun x => ?_, i.nosig⟩
    obtain k | ⟨m, v, k1, k2, k3, k4, k5, k6⟩ := i.reg x
    · exact .inl k
    · refine .inr ⟨m, v, k1, k2, k3, k4, k5, fun q hq => ?_⟩
      by_cases hx : x = fd
      · subst hx; simp at hq
      · simp only [Function.update_of_ne hx] at hq; exact k6 q hq

theorem run_inv {maxFd : Nat} : ∀ {xs : List Step} {s s' : St}, Inv maxFd s → run maxFd s xs = some s' → Inv maxFd s'
  | [], s, s', i, e => by simp only [run] at e; injection e with e; subst e; exact i
  | x :: xs, s, s', i, e => by
    simp only [run] at e
    obtain ⟨s1, h1, h2⟩ := Option.bind_eq_some_iff.1 e
    exact run_inv (step_inv i h1) h2

theorem init_inv (maxFd : Nat) : Inv maxFd St.init := ⟨fun _ => .inl ⟨rfl, rfl⟩, fun _ => rfl⟩

theorem step_lost {maxFd t : Nat} {s s' : St} {x : Step} (i : Inv maxFd s) (h : Lost s t) (e : step maxFd s x = some s') :
    Lost s' t ∧ s'.woken.count t = s.woken.count t := by
  cases x with
  | wait l u fd w =>
    simp only [step] at e
    cases hw : s.waits u with
    | some v => simp only [asyncWait, hw] at e; injection e with e; subst e; exact ⟨h, rfl⟩
    | none =>
      obtain ⟨_, h1, h2, h3, h4, h5, _⟩ := wait_inv i hw e
      have hne : u ≠ t := by rintro rfl; have := h.1; rw [hw] at this; exact absurd this (by simp)
      refine ⟨⟨by rw [h1, Function.update_of_ne hne.symm]; exact h.1, fun x hx => ?_⟩, by rw [h2]⟩
      by_cases hxf : x = fd
      · subst hxf
        by_cases hm : x < maxFd
        · rw [(h4 hm).1]; exact hne
        · rw [h5 hm] at hx ⊢; exact h.2 x hx
      · rw [h3 x hxf] at hx ⊢; exact h.2 x hx
  | poll l batch => exact poll_lost i h e
  | open_ fd => simp only [step] at e; injection e with e; subst e; exact ⟨h, rfl⟩
  | close fd => simp only [step] at e; injection e with e; subst e; exact ⟨h, rfl⟩

theorem run_lost {maxFd t : Nat} : ∀ {xs : List Step} {s s' : St}, Inv maxFd s → Lost s t → run maxFd s xs = some s' →
    Lost s' t ∧ s'.woken.count t = s.woken.count t
  | [], s, s', _, h, e => by simp only [run] at e; injection e with e; subst e; exact ⟨h, rfl⟩
  | x :: xs, s, s', i, h, e => by
    simp only [run] at e
    obtain ⟨s1, h1, h2⟩ := Option.bind_eq_some_iff.1 e
    obtain ⟨k1, k2⟩ := step_lost i h h1
    obtain ⟨j1, j2⟩ := run_lost (step_inv i h1) k1 h2
    exact ⟨j1, j2.trans k2⟩

/-! ## Claims -/

/-- Against C99: a task that waits for a descriptor for which another task starts to wait before it is woken — say one reads
and one writes the same socket — is suspended for good: whatever happens afterwards, it is never put on the run queue. -/
theorem second_waiter_strands_first (maxFd : Nat) (hs : List Step) (s : St) (hr : run maxFd St.init hs = some s)
    (l l' t t' fd : Nat) (w w' : Bool) (ht : s.waits t = none) (ht' : s.waits t' = none) (hne : t ≠ t') (hfd : fd < maxFd)
    (ho : s.ev.opn fd = true) :
    ∃ s1, run maxFd s [.wait l t fd w, .wait l' t' fd w'] = some s1 ∧
      ∀ xs s2, run maxFd s1 xs = some s2 → (s2.waits t).isSome ∧ s2.woken.count t = s1.woken.count t := by
  have i := run_inv (init_inv maxFd) hr
  have e1 : ∃ s1, asyncWait maxFd s l t fd w = some s1 := by
    unfold asyncWait; rw [ht]; simp only; rw [addFd_eq hfd, if_pos ho]; exact ⟨_, rfl⟩
  obtain ⟨s1, hs1e⟩ := e1
  obtain ⟨i1, h1, _, h3, _, _, h6⟩ := wait_inv i ht hs1e
  have ho1 : s1.ev.opn fd = true := by rw [h6]; exact ho
  have ht1 : s1.waits t' = none := by rw [h1, Function.update_of_ne hne.symm]; exact ht'
  have e2 : ∃ s2, asyncWait maxFd s1 l' t' fd w' = some s2 := by
    unfold asyncWait; rw [ht1]; simp only; rw [addFd_eq hfd, if_pos ho1]; exact ⟨_, rfl⟩
  obtain ⟨s2, e2⟩ := e2
  obtain ⟨i2, k1, k2, k3, k4, _⟩ := wait_inv i1 ht1 e2
  refine ⟨s2, by simp only [run, step, hs1e, Option.bind_some, e2], fun xs s3 e3 => ?_⟩
  have hl : Lost s2 t := by
    refine ⟨by rw [k1, Function.update_of_ne hne, h1, Function.update_self]; rfl, fun x hx => ?_⟩
    by_cases hxf : x = fd
    · subst hxf; rw [(k4 hfd).1]; exact hne.symm
    · rw [k3 x hxf, h3 x hxf] at hx ⊢
      obtain k | ⟨m, v, _, _, _, q, _, _⟩ := i.reg x
      · exact absurd k.1 hx
      · intro e; rw [e, ht] at q; exact absurd q (by simp)
  obtain ⟨j1, j2⟩ := run_lost i2 hl e3
  exact ⟨j1.1, j2⟩

/-- Against C99: waiting for a descriptor beyond the limit given to `events_init` suspends the task for good, without an
error. -/
theorem wait_out_of_range_strands (maxFd : Nat) (hs : List Step) (s : St) (hr : run maxFd St.init hs = some s)
    (l t fd : Nat) (w : Bool) (ht : s.waits t = none) (hfd : maxFd ≤ fd) :
    ∃ s1, run maxFd s [.wait l t fd w] = some s1 ∧
      ∀ xs s2, run maxFd s1 xs = some s2 → (s2.waits t).isSome ∧ s2.woken.count t = s1.woken.count t := by
  have i := run_inv (init_inv maxFd) hr
  have e1 : ∃ s1, asyncWait maxFd s l t fd w = some s1 := by
    unfold asyncWait; rw [ht]; simp only; rw [addFd_out (by omega)]; exact ⟨_, rfl⟩
  obtain ⟨s1, e1⟩ := e1
  obtain ⟨i1, h1, _, h3, _, h5, _⟩ := wait_inv i ht e1
  refine ⟨s1, by simp only [run, step, e1, Option.bind_some], fun xs s2 e2 => ?_⟩
  have hl : Lost s1 t := by
    refine ⟨by rw [h1, Function.update_self]; rfl, fun x hx => ?_⟩
    rw [h5 (by omega)] at hx ⊢
    obtain k | ⟨m, v, _, _, _, q, _, _⟩ := i.reg x
    · exact absurd k.1 hx
    · intro e; rw [e, ht] at q; exact absurd q (by simp)
  obtain ⟨j1, j2⟩ := run_lost i1 hl e2
  exact ⟨j1.1, j2⟩

/-- A wait is exclusive if no other task is suspended for the descriptor, which is in range and open. -/
def Excl (maxFd : Nat) (s : St) : Step → Prop
  | .wait _ t fd _ => s.waits t = none → fd < maxFd ∧ s.ev.opn fd = true ∧ ∀ t' l w, s.waits t' ≠ some (l, fd, w)
  | _ => True

/-- All waits of a history are exclusive. -/
def AllExcl (maxFd : Nat) : St → List Step → Prop
  | _, [] => True
  | s, x :: xs => Excl maxFd s x ∧ ∀ s', step maxFd s x = some s' → AllExcl maxFd s' xs

/-- Every suspended task has the registration of its descriptor. -/
def Held (s : St) : Prop :=
  ∀ t l fd w, s.waits t = some (l, fd, w) → (s.ev.tgt fd).loopId = l + 1 ∧ (s.ev.tgt fd).cb = t

theorem dispatch_held {maxFd : Nat} {s s' : St} (i : Inv maxFd s) (h : Held s) {l fd : Nat} {mask : BitVec 32}
    (e : dispatch maxFd s l fd mask = some s') : Held s' := by
  by_cases hc : (s.ev.tgt fd).loopId ≠ l + 1 ∨ revents mask = 0
  · obtain ⟨s1, e1, _, h1, _, h3, _⟩ := dispatch_off i hc
    rw [e] at e1; injection e1 with e1; subst e1
    intro t l fd w; rw [h1, h3]; exact h t l fd w
  · push Not at hc
    obtain ⟨s1, e1, _, h1, _, h3, h4, _⟩ := dispatch_reg i hc.1 hc.2
    rw [e] at e1; injection e1 with e1; subst e1
    intro t m x w hw
    rw [h1] at hw
    by_cases ht : t = (s.ev.tgt fd).cb
    · rw [ht, Function.update_self] at hw; exact absurd hw (by simp)
    · rw [Function.update_of_ne ht] at hw
      have := h t m x w hw
      by_cases hx : x = fd
      · subst hx; exact absurd this.2.symm ht
      · rw [h4 x hx]; exact this

theorem poll_held {maxFd l : Nat} : ∀ {batch : List (Nat × BitVec 32)} {s s' : St}, Inv maxFd s → Held s →
    poll maxFd l s batch = some s' → Held s'
  | [], s, s', _, h, e => by simp only [poll] at e; injection e with e; subst e; exact h
  | x :: xs, s, s', i, h, e => by
    obtain ⟨s1, h1, i1⟩ := dispatch_inv i l x.1 x.2
    simp only [poll, h1, Option.bind_some] at e
    exact poll_held i1 (dispatch_held i h h1) e

theorem step_held {maxFd : Nat} {s s' : St} {x : Step} (i : Inv maxFd s) (h : Held s) (hx : Excl maxFd s x)
    (e : step maxFd s x = some s') : Held s' := by
  cases x with
  | wait l u fd w =>
    simp only [step] at e
    cases hw : s.waits u with
    | some v => simp only [asyncWait, hw] at e; injection e with e; subst e; exact h
    | none =>
      obtain ⟨_, h1, _, h3, h4, _⟩ := wait_inv i hw e
      obtain ⟨k1, _, k3⟩ := hx hw
      intro t m x v hv
      rw [h1] at hv
      by_cases ht : t = u
      · subst ht
        rw [Function.update_self] at hv
        injection hv with hv
        injection hv with a b
        injection b with b c
        subst a b
        exact ⟨(h4 k1).2, (h4 k1).1⟩
      · rw [Function.update_of_ne ht] at hv
        by_cases hxf : x = fd
        · subst hxf; exact absurd hv (k3 t m v)
        · rw [h3 x hxf]; exact h t m x v hv
  | poll l batch => exact poll_held i h e
  | open_ fd => simp only [step] at e; injection e with e; subst e; exact h
  | close fd => simp only [step] at e; injection e with e; subst e; exact h

theorem run_held {maxFd : Nat} : ∀ {xs : List Step} {s s' : St}, Inv maxFd s → Held s → AllExcl maxFd s xs →
    run maxFd s xs = some s' → Held s'
  | [], s, s', _, h, _, e => by simp only [run] at e; injection e with e; subst e; exact h
  | x :: xs, s, s', i, h, hx, e => by
    simp only [run] at e
    obtain ⟨s1, h1, h2⟩ := Option.bind_eq_some_iff.1 e
    exact run_held (step_inv i h1) (step_held i h hx.1 h1) (hx.2 s1 h1) h2

/-- If all waits are exclusive, no step fails an assertion. -/
theorem run_total {maxFd : Nat} : ∀ {xs : List Step} {s : St}, Inv maxFd s → AllExcl maxFd s xs →
    ∃ s', run maxFd s xs = some s'
  | [], s, _, _ => ⟨s, rfl⟩
  | x :: xs, s, i, hx => by
    have : ∃ s1, step maxFd s x = some s1 := by
      cases x with
      | wait l u fd w =>
        simp only [step, asyncWait]
        cases hw : s.waits u with
        | some v => exact ⟨_, rfl⟩
        | none =>
          obtain ⟨k1, k2, _⟩ := hx.1 hw
          simp only
          rw [addFd_eq k1, if_pos k2]; exact ⟨_, rfl⟩
      | poll l batch => obtain ⟨s1, h1, _⟩ := poll_inv (l := l) (batch := batch) i; exact ⟨s1, h1⟩
      | open_ fd => exact ⟨_, rfl⟩
      | close fd => exact ⟨_, rfl⟩
    obtain ⟨s1, h1⟩ := this
    obtain ⟨s2, h2⟩ := run_total (step_inv i h1) (hx.2 s1 h1)
    exact ⟨s2, by simp only [run, h1, Option.bind_some, h2]⟩

/-- An event for a descriptor that nobody of this loop is suspended for, or none of whose bits is one of the three, wakes
nobody. -/
theorem quiet_event {maxFd : Nat} {s : St} (i : Inv maxFd s) {t l fd : Nat} {w : Bool} (ht : s.waits t = some (l, fd, w))
    {x : Nat} {m : BitVec 32} (hx : x ≠ fd ∨ revents m = 0) {s' : St}
    (e : dispatch maxFd s l x m = some s') : s'.waits t = some (l, fd, w) ∧ s'.woken.count t = s.woken.count t := by
  by_cases hc : (s.ev.tgt x).loopId ≠ l + 1 ∨ revents m = 0
  · obtain ⟨s1, e1, _, h1, h2, _⟩ := dispatch_off i hc
    rw [e] at e1; injection e1 with e1; subst e1
    exact ⟨by rw [h1]; exact ht, by rw [h2]⟩
  · push Not at hc
    obtain ⟨s1, e1, _, h1, h2, _⟩ := dispatch_reg i hc.1 hc.2
    rw [e] at e1; injection e1 with e1; subst e1
    have hxf : x ≠ fd := hx.resolve_right hc.2
    have hne : (s.ev.tgt x).cb ≠ t := by
      intro he
      obtain k | ⟨m, v, _, _, _, q, _, _⟩ := i.reg x
      · rw [k.1] at hc; exact absurd hc.1 (by omega)
      · rw [he, ht] at q; injection q with q; injection q with _ q; injection q with q _; exact hxf q.symm
    refine ⟨by rw [h1, Function.update_of_ne hne.symm]; exact ht, ?_⟩
    rw [h2, List.count_append, List.count_singleton]; simp [hne]

/-- A task that is not suspended is not woken. -/
theorem idle_batch {maxFd : Nat} {t l : Nat} : ∀ {batch : List (Nat × BitVec 32)} {s s' : St}, Inv maxFd s →
    s.waits t = none → poll maxFd l s batch = some s' → s'.waits t = none ∧ s'.woken.count t = s.woken.count t
  | [], s, s', _, ht, e => by simp only [poll] at e; injection e with e; subst e; exact ⟨ht, rfl⟩
  | x :: xs, s, s', i, ht, e => by
    obtain ⟨s1, h1, i1⟩ := dispatch_inv i l x.1 x.2
    simp only [poll, h1, Option.bind_some] at e
    have : s1.waits t = none ∧ s1.woken.count t = s.woken.count t := by
      by_cases hc : (s.ev.tgt x.1).loopId ≠ l + 1 ∨ revents x.2 = 0
      · obtain ⟨s2, e2, _, q1, q2, _⟩ := dispatch_off i hc
        rw [h1] at e2; injection e2 with e2; subst e2
        exact ⟨by rw [q1]; exact ht, by rw [q2]⟩
      · push Not at hc
        obtain ⟨s2, e2, _, q1, q2, _⟩ := dispatch_reg i hc.1 hc.2
        rw [h1] at e2; injection e2 with e2; subst e2
        have hne : (s.ev.tgt x.1).cb ≠ t := by
          intro he
          obtain k | ⟨m, v, _, _, _, q, _, _⟩ := i.reg x.1
          · rw [k.1] at hc; exact absurd hc.1 (by omega)
          · rw [he, ht] at q; exact absurd q (by simp)
        refine ⟨by rw [q1, Function.update_of_ne hne.symm]; exact ht, ?_⟩
        rw [q2, List.count_append, List.count_singleton]; simp [hne]
    obtain ⟨j1, j2⟩ := idle_batch i1 this.1 e
    exact ⟨j1, j2.trans this.2⟩

/-- Claim C99, for programs in which no two tasks wait for one descriptor at a time and descriptors are in range: nothing
aborts, and a poll wakes a suspended task exactly once if its batch has an event (readable, writable or hang-up) for the
descriptor, however many events and whatever else it has; otherwise it leaves it suspended. -/
theorem exclusive_wait_woken_partial (maxFd : Nat) (hs : List Step) (hx : AllExcl maxFd St.init hs) :
    ∃ s, run maxFd St.init hs = some s ∧
      ∀ t l fd w batch, s.waits t = some (l, fd, w) →
        ∃ s', run maxFd s [.poll l batch] = some s' ∧
          ((∃ e ∈ batch, e.1 = fd ∧ revents e.2 ≠ 0) → s'.waits t = none ∧ s'.woken.count t = s.woken.count t + 1) ∧
          (¬ (∃ e ∈ batch, e.1 = fd ∧ revents e.2 ≠ 0) → s'.waits t = some (l, fd, w) ∧
            s'.woken.count t = s.woken.count t) := by
  obtain ⟨s, e⟩ := run_total (init_inv maxFd) hx
  have i := run_inv (init_inv maxFd) e
  have hh := run_held (init_inv maxFd) (by intro t l fd w h; simp [St.init] at h) hx e
  refine ⟨s, e, fun t l fd w batch ht => ?_⟩
  clear hx e
  have : ∃ s', poll maxFd l s batch = some s' ∧
      ((∃ e ∈ batch, e.1 = fd ∧ revents e.2 ≠ 0) → s'.waits t = none ∧ s'.woken.count t = s.woken.count t + 1) ∧
      (¬ (∃ e ∈ batch, e.1 = fd ∧ revents e.2 ≠ 0) → s'.waits t = some (l, fd, w) ∧
        s'.woken.count t = s.woken.count t) := by
    induction batch generalizing s with
    | nil => exact ⟨s, rfl, by simp, by simp [ht]⟩
    | cons x xs ih =>
      by_cases hq : x.1 ≠ fd ∨ revents x.2 = 0
      · obtain ⟨s1, h1, i1⟩ := dispatch_inv i l x.1 x.2
        obtain ⟨k1, k2⟩ := quiet_event i ht hq h1
        obtain ⟨s2, e2, p1, p2⟩ := ih s1 i1 (dispatch_held i hh h1) k1
        have hiff : (∃ e ∈ x :: xs, e.1 = fd ∧ revents e.2 ≠ 0) ↔ ∃ e ∈ xs, e.1 = fd ∧ revents e.2 ≠ 0 := by
          constructor
          · rintro ⟨e, he, h⟩
            rcases List.mem_cons.1 he with rfl | he
            · exact absurd h (by tauto)
            · exact ⟨e, he, h⟩
          · rintro ⟨e, he, h⟩; exact ⟨e, by simp [he], h⟩
        rw [hiff, ← k2]
        exact ⟨s2, by simp only [poll, h1, Option.bind_some, e2], p1, p2⟩
      · push Not at hq
        obtain ⟨h2, h3⟩ := hh t l fd w ht
        rw [← hq.1] at h2 h3
        obtain ⟨s1, e1, i1, q1, q2, _⟩ := dispatch_reg i h2 hq.2
        rw [h3] at q1 q2
        obtain ⟨s2, e2, i2⟩ := poll_inv (l := l) (batch := xs) i1
        obtain ⟨p1, p2⟩ := idle_batch i1 (by rw [q1, Function.update_self]) e2
        refine ⟨s2, by simp only [poll, e1, Option.bind_some, e2], fun _ => ⟨p1, ?_⟩, fun h => absurd ⟨x, by simp, hq⟩ h⟩
        rw [p2, q2, List.count_append, List.count_singleton]; simp
  obtain ⟨s', e1, p⟩ := this
  exact ⟨s', by simp only [run, step, e1, Option.bind_some], p⟩

/-- Claim C99: the direction. In every state that can be reached, if the kernel reports for a descriptor only what its
interest set has, errors and hang-ups, a task that an event wakes was suspended for the descriptor, on that loop, and the
event says that the descriptor is ready in the direction that the task asked for, or that it hung up. -/
theorem woken_in_direction (maxFd : Nat) (hs : List Step) (s : St) (hr : run maxFd St.init hs = some s) (l fd t : Nat)
    (interest mask : BitVec 32) (hk : s.ev.kset (l + 1) fd = some interest)
    (hm : mask &&& ~~~ (interest ||| EPOLLERR ||| EPOLLHUP) = 0)
    (s' : St) (e : run maxFd s [.poll l [(fd, mask)]] = some s') (hw : s'.woken.count t ≠ s.woken.count t) :
    (s.waits t = some (l, fd, false) ∧ (mask &&& EPOLLIN ≠ 0 ∨ mask &&& EPOLLHUP ≠ 0) ∨
      s.waits t = some (l, fd, true) ∧ (mask &&& EPOLLOUT ≠ 0 ∨ mask &&& EPOLLHUP ≠ 0)) ∧ s'.woken = s.woken ++ [t] := by
  have i := run_inv (init_inv maxFd) hr
  have e' : dispatch maxFd s l fd mask = some s' := by
    simp only [run, step, poll] at e
    cases h : dispatch maxFd s l fd mask with
    | none => rw [h] at e; simp at e
    | some s1 => rw [h] at e; simpa using e
  by_cases hc : (s.ev.tgt fd).loopId ≠ l + 1 ∨ revents mask = 0
  · obtain ⟨s1, e1, _, _, h2, _⟩ := dispatch_off i hc
    rw [e'] at e1; injection e1 with e1; subst e1
    rw [h2] at hw; exact absurd rfl hw
  · push Not at hc
    obtain ⟨s1, e1, _, _, h2, _⟩ := dispatch_reg i hc.1 hc.2
    rw [e'] at e1; injection e1 with e1; subst e1
    have hcb : (s.ev.tgt fd).cb = t := by
      by_contra hne
      rw [h2, List.count_append, List.count_singleton] at hw
      simp [hne] at hw
    obtain k | ⟨m, v, k1, _, _, k4, _, k6⟩ := i.reg fd
    · rw [k.1] at hc; exact absurd hc.1 (by omega)
    obtain rfl : m = l := by omega
    have hin := k6 _ hk
    rw [hcb] at k4 h2
    refine ⟨?_, h2⟩
    subst hin
    have hhup : ∀ m : BitVec 32, m &&& EPOLLHUP = 0 → m &&& ~~~ (EPOLLIN ||| EPOLLERR ||| EPOLLHUP) = 0 → m &&& EPOLLOUT = 0 := by
      intro m h1 h2
      have : m &&& EPOLLOUT = (m &&& ~~~ (EPOLLIN ||| EPOLLERR ||| EPOLLHUP)) &&& EPOLLOUT := by
        rw [BitVec.and_assoc]; congr 1
      rw [this, h2]; decide
    have hhup' : ∀ m : BitVec 32, m &&& ~~~ (EPOLLOUT ||| EPOLLERR ||| EPOLLHUP) = 0 → m &&& EPOLLIN = 0 := by
      intro m h2
      have : m &&& EPOLLIN = (m &&& ~~~ (EPOLLOUT ||| EPOLLERR ||| EPOLLHUP)) &&& EPOLLIN := by
        rw [BitVec.and_assoc]; congr 1
      rw [this, h2]; decide
    cases v with
    | false =>
      refine .inl ⟨k4, ?_⟩
      by_contra hn
      push Not at hn
      have h3 := hhup mask hn.2 hm
      apply hc.2
      unfold revents
      rw [hn.1, hn.2, h3]; decide
    | true =>
      refine .inr ⟨k4, ?_⟩
      by_contra hn
      push Not at hn
      have h3 := hhup' mask hm
      apply hc.2
      unfold revents
      rw [hn.1, hn.2, h3]; decide

/-- Against C99: if the kernel reports only an error on the descriptor, the task stays suspended. -/
theorem error_does_not_wake (maxFd : Nat) (hs : List Step) (hx : AllExcl maxFd St.init hs) :
    ∃ s, run maxFd St.init hs = some s ∧ ∀ t l fd w, s.waits t = some (l, fd, w) →
      ∃ s', run maxFd s [.poll l [(fd, EPOLLERR)]] = some s' ∧ s'.waits t = some (l, fd, w) ∧ s'.woken = s.woken := by
  obtain ⟨s, e⟩ := run_total (init_inv maxFd) hx
  have i := run_inv (init_inv maxFd) e
  refine ⟨s, e, fun t l fd w ht => ?_⟩
  obtain ⟨s1, e1, _, h1, h2, _⟩ := dispatch_off (l := l) (fd := fd) (mask := EPOLLERR) i (.inr (by decide))
  exact ⟨s1, by simp only [run, step, poll, e1, Option.bind_some], by rw [h1]; exact ht, h2⟩

/-! Two tasks wait for two descriptors; one batch has two events for the first and one for the second. -/
def demo : List Step := [.open_ 5, .open_ 6, .wait 0 1 5 false, .wait 0 2 6 true]

example : (run 64 St.init (demo ++ [.poll 0 [(6, 4), (5, 1), (5, 16)]])).map (·.woken) = some [2, 1] := by decide +kernel
example : AllExcl 64 St.init demo := by
  refine ⟨trivial, fun s1 h1 => ⟨trivial, fun s2 h2 => ⟨?_, fun s3 h3 => ⟨?_, fun _ _ => trivial⟩⟩⟩⟩
  all_goals
    simp only [step, Option.some.injEq] at h1 h2
    subst h1; subst h2
  · intro _
    refine ⟨by decide, by decide +kernel, fun t l w => by simp [St.init]⟩
  · simp only [step, asyncWait, St.init] at h3
    rw [addFd_eq (by decide), if_pos (by decide +kernel)] at h3
    simp only [Option.map_some, Option.some.injEq] at h3
    subst h3
    intro _
    refine ⟨by decide, by decide +kernel, fun t l w => ?_⟩
    by_cases ht : t = 1
    · subst ht; simp
    · simp [Function.update_of_ne ht]
/-! A reader (task 1) and a writer (task 2) of descriptor 5: only the writer is woken, by any events. -/
example : (run 64 St.init [.open_ 5, .wait 0 1 5 false, .wait 0 2 5 true, .poll 0 [(5, 5)], .poll 0 [(5, 1)]]).map (·.woken) =
    some [2] := by decide +kernel

end Verif.Wait
