import Verif.Watch.Deliver

/-!
# Whether changes reach the handler through the event loop (C76)
-/

namespace Verif.Watch.Deliver

open Verif.Fd (Op Cbs)

/-! ## Specification -/

/-- `W` are the descriptors of monitors: only they are registered for path watching, and `events_set_event` is not used on
them (no function of the library does). -/
def Respects (W : Nat → Prop) : Op → Prop
  | .add _ fd ev _ => ev = PATHWATCH → W fd
  | .setEvent fd _ => ¬ W fd
  | _ => True

/-! ## Helpers -/

/-- Monitors have no events registered, and only they are path watchers. -/
structure Quiet (W : Nat → Prop) (s : St) : Prop where
  only : ∀ fd, s.pw fd = true → W fd
  off : ∀ fd, s.pw fd = true → (s.base.tgt fd).events &&& 3 = 0
  none : s.queued = []

theorem update_other {s s' : Fd.St} {l fd x : Nat} {event : BitVec 32} (h : Fd.updateInternal s l x event = some s')
    (hx : fd ≠ x) : s'.tgt fd = s.tgt fd := by
  unfold Fd.updateInternal Fd.kernelUpdate at h
  split at h
  · cases h
  · split at h
    · cases h; rfl
    · split at h
      · cases h; simp [Fd.setTgt, hx]
      · split at h
        · split at h
          · cases h; simp [Fd.setTgt, Fd.setK, hx]
          · cases h
        · split at h
          · cases h; simp [Fd.setTgt, Fd.setK, hx]
          · cases h

theorem update_del_off {s s' : Fd.St} {l fd : Nat} (h : Fd.updateInternal s l fd Fd.DEL = some s')
    (h0 : (s.tgt fd).events &&& 3 = 0) : (s'.tgt fd).events &&& 3 = 0 := by
  unfold Fd.updateInternal Fd.kernelUpdate at h
  split at h
  · cases h
  · split at h
    · cases h; exact h0
    · rw [if_pos (by decide)] at h
      cases h
      simp [Fd.setTgt]
      decide

/-- Registering a monitor tells the kernel nothing: the epoll sets stay as they are. -/
theorem add_path {maxFd l fd cb : Nat} {s s' : Fd.St} {r : Int} (h : Fd.addFd maxFd s l fd PATHWATCH cb = some (r, s')) :
    s'.kset = s.kset ∧ (fd < maxFd → (s'.tgt fd).events = 0 ∧ r = 0 ∧ s'.active l = s.active l + 1) ∧
      (¬ fd < maxFd → s' = s) ∧ ∀ x, x ≠ fd → s'.tgt x = s.tgt x := by
  unfold Fd.addFd at h
  split at h
  · rename_i hfd
    simp only [Fd.updateInternal, Fd.setTgt, Function.update_self, ne_eq, not_true_eq_false, if_false] at h
    rw [if_pos (by decide)] at h
    simp only [Option.map_some, Option.some.injEq, Prod.mk.injEq] at h
    obtain ⟨rfl, rfl⟩ := h
    exact ⟨rfl, fun _ => by simp, fun h => absurd hfd h, fun x hx => by simp [hx]⟩
  · cases h
    rename_i hfd
    exact ⟨rfl, fun h => absurd h hfd, fun _ => rfl, fun _ _ => rfl⟩

theorem op_quiet {W : Nat → Prop} {maxFd maxSig : Nat} {s s' : St} {o : Op} (hq : Quiet W s) (ho : Respects W o)
    (h : runOp maxFd maxSig s o = some s') : Quiet W s' := by
  unfold runOp at h
  rw [Option.map_eq_some_iff] at h
  obtain ⟨b, hb, rfl⟩ := h
  cases o with
  | add l fd ev cb =>
    simp only [Fd.runOp, Option.map_eq_some_iff, Prod.exists] at hb
    obtain ⟨r, b', hb, rfl⟩ := hb
    by_cases hev : ev = PATHWATCH
    · subst hev
      obtain ⟨_, h2, h3, h4⟩ := add_path hb
      by_cases hfd : fd < maxFd
      · simp only [hfd, if_true]
        refine ⟨fun x hx => ?_, fun x hx => ?_, hq.none⟩
        · dsimp only at hx
          by_cases e : x = fd
          · rw [e]; exact ho rfl
          · rw [Function.update_of_ne e] at hx; exact hq.only x hx
        · dsimp only at hx ⊢
          by_cases e : x = fd
          · rw [e, (h2 hfd).1]; rfl
          · rw [Function.update_of_ne e] at hx
            rw [h4 x e]
            exact hq.off x hx
      · rw [h3 hfd]
        simp only [hfd, if_false]
        exact hq
    · simp only [hev, decide_false]
      unfold Fd.addFd at hb
      by_cases hfd : fd < maxFd
      · rw [if_pos hfd] at hb
        simp only [Option.map_eq_some_iff, Prod.mk.injEq] at hb
        obtain ⟨c, hc, _, rfl⟩ := hb
        simp only [hfd, if_true]
        refine ⟨fun x hx => ?_, fun x hx => ?_, hq.none⟩
        · dsimp only at hx
          by_cases e : x = fd
          · rw [e, Function.update_self] at hx; cases hx
          · rw [Function.update_of_ne e] at hx; exact hq.only x hx
        · dsimp only at hx ⊢
          by_cases e : x = fd
          · rw [e, Function.update_self] at hx; cases hx
          · rw [Function.update_of_ne e] at hx
            rw [update_other hc e]
            simp only [Fd.setTgt]
            rw [Function.update_of_ne e]
            exact hq.off x hx
      · rw [if_neg hfd] at hb
        cases hb
        simp only [hfd, if_false]
        exact hq
  | del fd =>
    refine ⟨hq.only, fun x hx => ?_, hq.none⟩
    simp only at hx ⊢
    have hx0 := hq.off x hx
    simp only [Fd.runOp, Option.map_eq_some_iff, Prod.exists] at hb
    obtain ⟨r, b', hb, rfl⟩ := hb
    unfold Fd.delFd at hb
    split at hb
    · split at hb
      · unfold Fd.delSig at hb
        simp only at hb
        split at hb
        · cases hb
        · simp only [Option.some.injEq, Prod.mk.injEq] at hb
          obtain ⟨_, rfl⟩ := hb
          by_cases e : x = fd
          · subst e; simpa [Fd.setTgt] using hx0
          · simpa [Fd.setTgt, e] using hx0
      · unfold Fd.delIo at hb
        split at hb
        · cases hb; exact hx0
        · simp only [Option.map_eq_some_iff, Prod.mk.injEq] at hb
          obtain ⟨c, hc, _, rfl⟩ := hb
          by_cases e : x = fd
          · subst e
            have := update_del_off hc hx0
            simpa [Fd.setTgt] using this
          · have := update_other hc e
            simp only [Fd.setTgt]
            rw [Function.update_of_ne e]
            simp only [this]
            exact hx0
    · cases hb
  | setEvent fd ev =>
    refine ⟨hq.only, fun x hx => ?_, hq.none⟩
    simp only at hx ⊢
    have hx0 := hq.off x hx
    have e : x ≠ fd := fun e => ho (e ▸ hq.only x hx)
    simp only [Fd.runOp, Option.map_eq_some_iff, Prod.exists] at hb
    obtain ⟨r, b', hb, rfl⟩ := hb
    unfold Fd.setEvent at hb
    split at hb
    · unfold Fd.setEventAt at hb
      split at hb
      · split at hb
        · cases hb
        · simp only [Option.map_eq_some_iff, Prod.mk.injEq] at hb
          obtain ⟨c, hc, _, rfl⟩ := hb
          rw [update_other hc e]
          exact hx0
      · cases hb; exact hx0
    · cases hb
  | open_ fd => cases hb; exact ⟨hq.only, hq.off, hq.none⟩
  | close fd => cases hb; exact ⟨hq.only, hq.off, hq.none⟩
  | addSig l sig cb =>
    refine ⟨hq.only, fun x hx => ?_, hq.none⟩
    simp only at hx ⊢
    have hx0 := hq.off x hx
    simp only [Fd.runOp, Option.map_eq_some_iff, Prod.exists] at hb
    obtain ⟨r, b', hb, rfl⟩ := hb
    unfold Fd.addSig at hb
    split at hb
    · split at hb
      · cases hb; exact hx0
      · simp only [Option.some.injEq, Prod.mk.injEq] at hb
        obtain ⟨_, rfl⟩ := hb
        by_cases e : x = sig
        · subst e; simpa [Fd.setTgt] using hx0
        · simpa [Fd.setTgt, e] using hx0
    · cases hb; exact hx0

theorem ops_quiet {W : Nat → Prop} {maxFd maxSig : Nat} : ∀ {os : List Op} {s s' : St}, Quiet W s → (∀ o ∈ os, Respects W o) →
    runOps maxFd maxSig s os = some s' → Quiet W s'
  | [], s, s', hq, _, h => by cases h; exact hq
  | o :: os, s, s', hq, ho, h => by
    rw [runOps, Option.bind_eq_some_iff] at h
    obtain ⟨s1, h1, h2⟩ := h
    exact ops_quiet (op_quiet hq (ho o (by simp)) h1) (fun x hx => ho x (by simp [hx])) h2

theorem poll_quiet {W : Nat → Prop} {maxFd maxSig l : Nat} {cbs : Cbs} (hc : ∀ n c, ∀ o ∈ cbs n c, Respects W o) :
    ∀ {es : List Ev} {s s' : St}, Quiet W s → poll maxFd maxSig cbs l s es = some s' → Quiet W s'
  | [], s, s', hq, h => by cases h; exact hq
  | (fd, mask, ok) :: es, s, s', hq, h => by
    rw [poll] at h
    split at h
    · rename_i hon
      split at h
      · rename_i hpw
        exact absurd (hq.off fd hpw) hon.2
      · split at h
        · rw [Option.bind_eq_some_iff] at h
          obtain ⟨s1, h1, h2⟩ := h
          have h3 : Quiet W s1 := ops_quiet (s := { s with base := { s.base with
            log := s.base.log ++ [.io l fd (Fd.revents mask) (s.base.tgt fd).cb] } }) ⟨hq.only, hq.off, hq.none⟩ (hc _ _) h1
          exact poll_quiet hc h3 h2
        · exact poll_quiet hc hq h
    · exact poll_quiet hc (s := { s with base := Fd.setK s.base l fd none }) ⟨hq.only, hq.off, hq.none⟩ h

/-! ## C76 -/

/-- Whatever is registered, removed, opened and closed, whatever callbacks do and whatever the kernel reports: no poll of a
loop ever hands the change records of a monitor to its handler. -/
theorem records_never_delivered (W : Nat → Prop) (maxFd maxSig : Nat) (cbs : Cbs) (hc : ∀ n c, ∀ o ∈ cbs n c, Respects W o) :
    ∀ (hs : List H) (s : St), (∀ o, H.op o ∈ hs → Respects W o) → run maxFd maxSig cbs St.init hs = some s → s.queued = [] := by
  have gen : ∀ (hs : List H) (s s' : St), Quiet W s → (∀ o, H.op o ∈ hs → Respects W o) →
      run maxFd maxSig cbs s hs = some s' → Quiet W s' := by
    intro hs
    induction hs with
    | nil => intro s s' hq _ h; cases h; exact hq
    | cons x hs ih =>
      intro s s' hq ho h
      rw [run, Option.bind_eq_some_iff] at h
      obtain ⟨s1, h1, h2⟩ := h
      refine ih s1 s' ?_ (fun o h => ho o (by simp [h])) h2
      cases x with
      | op o => exact op_quiet hq (ho o (by simp)) h1
      | poll l batch => exact poll_quiet hc hq h1
  intro hs s ho h
  exact (gen hs St.init s ⟨fun _ h => (by cases h), fun _ h => (by cases h), rfl⟩ ho h).none

/-- Registering a monitor succeeds and is counted as an active descriptor, but the kernel is not told to watch it. -/
theorem registration_not_passed_on (maxFd maxSig : Nat) (s s' : St) (l fd cb : Nat) (hfd : fd < maxFd)
    (h : runOp maxFd maxSig s (.add l fd PATHWATCH cb) = some s') :
    s'.base.kset = s.base.kset ∧ s'.pw fd = true ∧ s'.base.active l = s.base.active l + 1 := by
  unfold runOp at h
  rw [Option.map_eq_some_iff] at h
  obtain ⟨b, hb, rfl⟩ := h
  simp only [Fd.runOp, Option.map_eq_some_iff, Prod.exists] at hb
  obtain ⟨r, b', hb, rfl⟩ := hb
  obtain ⟨h1, h2, _, _⟩ := add_path hb
  refine ⟨h1, ?_, (h2 hfd).2.2⟩
  simp [hfd]

/-- If a user makes the monitor readable by hand (`events_set_event(fd, EVENTS_READ)`), a poll that reports it hands its records
over, and the rest of the batch waits for the next poll. -/
theorem delivered_when_readable_partial (maxFd maxSig : Nat) (cbs : Cbs) (s : St) (l fd : Nat) (mask : BitVec 32) (es : List Ev)
    (hl : (s.base.tgt fd).loopId = l) (hpw : s.pw fd = true) (hev : (s.base.tgt fd).events &&& 3 ≠ 0) :
    poll maxFd maxSig cbs l s ((fd, mask, true) :: es) = some { s with queued := s.queued ++ [fd] } := by
  rw [poll, if_pos ⟨hl.symm, hev⟩, hpw]
  rfl

/-! ## Cases -/

/-- Monitor 5 on loop 1, a socket 6 with its callback adding and deleting, polls reporting both. -/
def sampleHistory : List H :=
  [.op (.open_ 5), .op (.open_ 6), .op (.add 1 5 PATHWATCH 9), .op (.add 1 6 Fd.READ 4),
    .poll 1 [(6, Fd.EPOLLIN, true), (5, Fd.EPOLLIN, true)], .op (.del 5), .op (.add 1 5 PATHWATCH 9), .poll 1 [(5, Fd.EPOLLIN, true)]]

example : (∀ o, H.op o ∈ sampleHistory → Respects (· = 5) o) ∧
    (run 64 8 (fun _ _ => []) St.init sampleHistory).isSome = true := by
  refine ⟨fun o ho => ?_, by decide +kernel⟩
  simp only [sampleHistory, List.mem_cons, H.op.injEq, reduceCtorEq, false_or, or_false, List.not_mem_nil] at ho
  rcases ho with rfl | rfl | rfl | rfl | rfl | rfl
  · trivial
  · trivial
  · intro _; rfl
  · intro h; exact absurd h (by decide)
  · trivial
  · intro _; rfl

example : ((run 64 8 (fun _ _ => []) St.init [.op (.open_ 5), .op (.add 1 5 PATHWATCH 9), .op (.setEvent 5 Fd.READ)]).map fun s =>
    decide ((s.base.tgt 5).loopId = 1 ∧ s.pw 5 = true ∧ (s.base.tgt 5).events &&& 3 ≠ 0)) = some true := by decide +kernel

end Verif.Watch.Deliver
