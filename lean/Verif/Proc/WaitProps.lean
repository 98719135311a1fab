import Verif.Proc.Wait

/-!
# C81-C84: waiting for a process, descriptors, handles and failed starts
-/

namespace Verif.Proc

open Io.Pseudo (pick valid getFd grown)

/-! ## The kernel's answer -/

/-- The answer for a child that is no longer running. -/
def ansOf : Life → Ans
  | .running => .nothing
  | .ended e => .done e
  | .unknown => .error .echild

theorem waitLoop_block {pid : Int} (hp : 0 < pid) : ∀ (ms : List Moment) (k : Nat), ms.length < k →
    waitLoop false pid k ms = (ms.find? (·.life ≠ .running)).map fun m => ansOf m.life
  | [], k + 1, _ => rfl
  | m :: ms, k + 1, hk => by
    have hn : ¬ pid ≤ 0 := by omega
    simp only [List.length_cons] at hk
    cases hl : m.life with
    | running =>
      cases hs : m.signal
      · have e : waitLoop false pid (k + 1) (m :: ms) = waitLoop false pid (k + 1) ms := by
          have : waitid false pid (m :: ms) = waitid false pid ms := by
            rw [waitid, if_neg hn, hl]
            simp [hs]
          simp only [waitLoop, this]
        rw [e, waitLoop_block hp ms (k + 1) (by omega)]
        simp [hl]
      · have : waitid false pid (m :: ms) = some (.error .eintr, ms) := by
          rw [waitid, if_neg hn, hl]
          simp [hs]
        simp only [waitLoop, this]
        rw [waitLoop_block hp ms k (by omega)]
        simp [hl]
    | ended e =>
      have : waitid false pid (m :: ms) = some (.done e, ms) := by
        rw [waitid, if_neg hn, hl]
      simp [waitLoop, this, hl, ansOf]
    | unknown =>
      have : waitid false pid (m :: ms) = some (.error .echild, ms) := by
        rw [waitid, if_neg hn, hl]
      simp [waitLoop, this, hl, ansOf]

theorem waitLoop_nohang {pid : Int} (hp : 0 < pid) (m : Moment) (ms : List Moment) (k : Nat) :
    waitLoop true pid (k + 1) (m :: ms) = some (ansOf m.life) := by
  have hn : ¬ pid ≤ 0 := by omega
  cases hl : m.life with
  | running =>
    have : waitid true pid (m :: ms) = some (.nothing, ms) := by
      rw [waitid, if_neg hn, hl]; simp
    simp [waitLoop, this, ansOf]
  | ended e =>
    have : waitid true pid (m :: ms) = some (.done e, ms) := by
      rw [waitid, if_neg hn, hl]
    simp [waitLoop, this, ansOf]
  | unknown =>
    have : waitid true pid (m :: ms) = some (.error .echild, ms) := by
      rw [waitid, if_neg hn, hl]
    simp [waitLoop, this, ansOf]

/-! ## C81: what a wait reports -/

/-- C81: for a process that was not started detached, a wait with a non-zero timeout repeats calls interrupted by signals and
returns when the process has ended, with its exit status, or the negated number of the signal that killed it. -/
theorem wait_reports_end (i : Nat) (t : Nat) (s : St) (hd : (s.proc i).detached = false) (hp : 0 < (s.proc i).ps) (ht : t ≠ 0)
    (before after : List Moment) (hb : ∀ m ∈ before, m.life = .running) (sg : Bool) :
    (∀ n, execWait i t (before ++ ⟨.ended (.exited n), sg⟩ :: after) s = some (.ok (some (n : Int)), osClose i s)) ∧
    (∀ n, execWait i t (before ++ ⟨.ended (.killed n), sg⟩ :: after) s = some (.ok (some (-(n : Int))), osClose i s)) := by
  have key : ∀ e, execWait i t (before ++ ⟨.ended e, sg⟩ :: after) s = some (.ok (some (exitCode e)), osClose i s) := by
    intro e
    unfold execWait
    rw [hd]
    simp only [Bool.false_eq_true, if_false, ht, decide_false]
    rw [waitLoop_block hp _ _ (by omega)]
    have : (before ++ ⟨.ended e, sg⟩ :: after).find? (fun m => decide (m.life ≠ .running)) = some ⟨.ended e, sg⟩ := by
      have h1 : before.find? (fun m => decide (m.life ≠ .running)) = none := by
        rw [List.find?_eq_none]
        intro m hm
        simp [hb m hm]
      rw [List.find?_append, h1]
      simp
    rw [this]
    rfl
  exact ⟨fun n => key (.exited n), fun n => key (.killed n)⟩

/-- C81: with timeout 0 a wait returns at once: "timed out" exactly if the process is still running. -/
theorem wait_zero_polls (i : Nat) (s : St) (hd : (s.proc i).detached = false) (hp : 0 < (s.proc i).ps) (m : Moment)
    (ms : List Moment) :
    ∃ r s', execWait i 0 (m :: ms) s = some (r, s') ∧
      (r = .fail .etimedout ↔ m.life = .running) ∧ (m.life = .running → s' = s) ∧
      (∀ n, m.life = .ended (.exited n) → r = .ok (some (n : Int)) ∧ s' = osClose i s) ∧
      (∀ n, m.life = .ended (.killed n) → r = .ok (some (-(n : Int))) ∧ s' = osClose i s) := by
  unfold execWait
  rw [hd]
  simp only [Bool.false_eq_true, if_false, decide_true]
  rw [waitLoop_nohang hp m ms]
  cases hl : m.life with
  | running => exact ⟨_, _, rfl, by simp, by simp, by simp, by simp⟩
  | ended e =>
    refine ⟨_, _, rfl, by simp, by simp, ?_, ?_⟩ <;>
    · intro n h
      cases h
      exact ⟨rfl, rfl⟩
  | unknown => exact ⟨_, _, rfl, by simp, by simp, by simp, by simp⟩

/-- C81: how the process ended can be told from the code: an exit status is never negative and signals are numbered from
1. -/
theorem exit_code_unambiguous (e e' : End) (h : ∀ n, e = .killed n ∨ e' = .killed n → 0 < n)
    (hc : exitCode e = exitCode e') : e = e' := by
  cases e <;> cases e' <;> simp only [exitCode] at hc
  · congr; omega
  · have := h _ (.inr rfl); omega
  · have := h _ (.inl rfl); omega
  · congr; omega

/-- C81 is false for timeouts: as long as the process runs, a wait with any non-zero timeout does not return, however much
time (moments) passes. -/
theorem wait_ignores_timeout (i t : Nat) (s : St) (hd : (s.proc i).detached = false) (hp : 0 < (s.proc i).ps) (ht : t ≠ 0)
    (ms : List Moment) (hm : ∀ m ∈ ms, m.life = .running) : execWait i t ms s = none := by
  unfold execWait
  rw [hd]
  simp only [Bool.false_eq_true, if_false, ht, decide_false]
  rw [waitLoop_block hp _ _ (by omega), List.find?_eq_none.2 (fun m h => by simp [hm m h])]
  rfl

/-- C81 is false for detached processes: a wait succeeds at once though the process is running, stores no exit code, and
does so for ever after. -/
theorem detached_wait_returns_at_once (i t : Nat) (s : St) (hd : (s.proc i).detached = true) (ms : List Moment) :
    execWait i t ms s = some (.ok none, s) := by
  unfold execWait
  rw [if_pos hd]

/-! ## Histories of starts and waits -/

inductive Op where
  | start (detached : Bool) (active : Option Nat) (efd fork : Int)
  | wait (i t : Nat) (ms : List Moment)

/-- A started process that was not waited for: what `exec` was given and got. -/
abbrev Live := Nat → Option Rec

/-- The bookkeeping of the caller: handles it was given and has not finished waiting for. -/
def specStep (H : Live) : Op → Nat × Option Ret → Live
  | .start d _ efd fork, (i, _) => Function.update H i (some ⟨d, fork, efd⟩)
  | .wait i _ _, (_, some (.ok (some _))) => Function.update H i none
  | .wait _ _ _, _ => H

/-- An operation with its results.  A wait that has not returned leaves the state alone. -/
def step (s : St) : Op → Res ((Nat × Option Ret) × St)
  | .start d a efd fork => do
    let (i, s) ← start d a efd fork s
    .ok ((i, none), s)
  | .wait i t ms =>
    match execWait i t ms s with
    | none => .ok ((0, none), s)
    | some (r, s) => .ok ((0, some r), s)

/-- A history from `s` with the caller's bookkeeping.  Waits are for handles that are live, and `vfork` and `eventfd` return
-1 or something positive. -/
inductive Hist : St → Live → List Op → St → Live → Prop
  | nil (s : St) (H : Live) : Hist s H [] s H
  | cons {s s1 s2 : St} {H H2 : Live} {o : Op} {os : List Op} {r : Nat × Option Ret} :
      (∀ i t ms, o = .wait i t ms → (H i).isSome) →
      (∀ d a efd fork, o = .start d a efd fork → (fork = -1 ∨ 0 < fork) ∧ (efd = -1 ∨ 0 < efd)) →
      step s o = .ok (r, s1) → Hist s1 (specStep H o r) os s2 H2 → Hist s H (o :: os) s2 H2

structure Inv (s : St) (H : Live) : Prop where
  used : ∀ i, s.tab.used i = (H i).isSome
  rc : ∀ i r, H i = some r → s.proc i = r ∧ s.tab.fd i = r.ps ∧ 1 ≤ i ∧ i < s.tab.size ∧ (r.ps = -1 ∨ 0 < r.ps) ∧ r.eventFd ≠ -1
  size : 256 ≤ s.tab.size

theorem growLoop_facts (a : Nat) : ∀ (k : Nat) (t : Io.Pseudo.St), (∀ i, t.used i = true → i < t.size) →
    t.size ≤ (Io.Pseudo.growLoop a k t).size ∧ (∀ i, (Io.Pseudo.growLoop a k t).used i = t.used i) ∧
      ∀ i, t.used i = true → (Io.Pseudo.growLoop a k t).fd i = t.fd i
  | 0, t, _ => ⟨Nat.le_refl _, fun _ => rfl, fun _ _ => rfl⟩
  | k + 1, t, h => by
    rw [Io.Pseudo.growLoop]
    split
    · have hu : ∀ i, (Io.Pseudo.grow t).used i = t.used i := by
        intro i
        simp only [Io.Pseudo.grow]
        split
        · rename_i hi
          cases hb : t.used i
          · rfl
          · have := h i hb; omega
        · rfl
      have hf : ∀ i, t.used i = true → (Io.Pseudo.grow t).fd i = t.fd i := by
        intro i hi
        simp only [Io.Pseudo.grow]
        have := h i hi
        rw [if_neg (by omega)]
      have hs : t.size ≤ (Io.Pseudo.grow t).size := by simp only [Io.Pseudo.grow]; omega
      obtain ⟨h1, h2, h3⟩ := growLoop_facts a k (Io.Pseudo.grow t) (fun i hi => by
        rw [hu] at hi; have := h i hi; omega)
      exact ⟨by omega, fun i => by rw [h2, hu], fun i hi => by rw [h3 i (by rw [hu]; exact hi), hf i hi]⟩
    · exact ⟨Nat.le_refl _, fun _ => rfl, fun _ _ => rfl⟩

theorem grown_facts {s : St} {H : Live} (h : Inv s H) (a : Option Nat) :
    s.tab.size ≤ (grown a s.tab).size ∧ (∀ i, (grown a s.tab).used i = s.tab.used i) ∧
      ∀ i, s.tab.used i = true → (grown a s.tab).fd i = s.tab.fd i := by
  have hb : ∀ i, s.tab.used i = true → i < s.tab.size := fun i hi => by
    rw [h.used] at hi
    obtain ⟨r, hr⟩ := Option.isSome_iff_exists.1 hi
    exact (h.rc i r hr).2.2.2.1
  cases a with
  | none => exact ⟨Nat.le_refl _, fun _ => rfl, fun _ _ => rfl⟩
  | some a => exact growLoop_facts a (a + 1) s.tab hb

theorem newFd_def (a : Option Nat) (efd d : Int) (t : Io.Pseudo.St) :
    Io.Pseudo.newFd a efd d t = match pick (grown a t) efd d with
      | some i => (some i, { grown a t with used := Function.update (grown a t).used i true, fd := Function.update (grown a t).fd i d })
      | none => (none, grown a t) := rfl

theorem pick_neg {t : Io.Pseudo.St} {efd : Int} {i : Nat} (h : pick t efd (-1) = some i) :
    0 < efd ∧ t.used i = false ∧ 1 ≤ i ∧ i < t.size := by
  unfold pick at h
  rw [if_neg (by omega)] at h
  split at h
  · split at h
    · rename_i h1 h2
      cases h
      exact ⟨h1, h2.2, by omega, by omega⟩
    · rename_i h1 _
      have h3 := List.mem_of_find?_eq_some h
      have h4 := List.find?_some h
      simp at h3 h4
      exact ⟨h1, h4.2, h4.1, h3⟩
  · cases h

theorem start_eq {d : Bool} {a : Option Nat} {efd fork : Int} {s s' : St} {i : Nat} (h : start d a efd fork s = .ok (i, s')) :
    pick (grown a s.tab) efd (-1) = some i ∧
      s' = ⟨{ grown a s.tab with used := Function.update (grown a s.tab).used i true, fd := Function.update (Function.update (grown a s.tab).fd i (-1)) i fork },
        Function.update s.proc i ⟨d, fork, efd⟩, if efd = -1 then s.opn else Function.update s.opn efd true⟩ := by
  unfold start at h
  rw [newFd_def] at h
  cases hp : pick (grown a s.tab) efd (-1) with
  | none => rw [hp] at h; cases h
  | some j =>
    rw [hp] at h
    cases h
    exact ⟨rfl, rfl⟩

theorem start_inv {d : Bool} {a : Option Nat} {efd fork : Int} {s s' : St} {H : Live} {i : Nat} (h : Inv s H)
    (hf : fork = -1 ∨ 0 < fork) (hs : start d a efd fork s = .ok (i, s')) :
    Inv s' (Function.update H i (some ⟨d, fork, efd⟩)) ∧ H i = none ∧ 0 < efd := by
  obtain ⟨hp, rfl⟩ := start_eq hs
  obtain ⟨h1, h2, h3, h4⟩ := pick_neg hp
  obtain ⟨g1, g2, g3⟩ := grown_facts h a
  have hn : H i = none := by
    rw [g2, h.used] at h2
    simpa using h2
  refine ⟨⟨fun j => ?_, fun j r hj => ?_, ?_⟩, hn, h1⟩
  · by_cases hj : j = i
    · subst hj; simp
    · simp [hj, g2, h.used]
  · by_cases hji : j = i
    · subst hji
      simp at hj
      subst hj
      refine ⟨by simp, by simp, h3, h4, hf, ?_⟩
      dsimp only
      omega
    · simp [hji] at hj
      obtain ⟨r1, r2, r3, r4, r5⟩ := h.rc j r hj
      refine ⟨by simp [hji, r1], ?_, r3, ?_, r5⟩
      · simp only [ne_eq, hji, not_false_eq_true, Function.update_of_ne]
        rw [g3 j (by rw [h.used, hj]; rfl), r2]
      · dsimp only; omega
  · have := h.size
    dsimp only
    omega

theorem wait_cases {i t : Nat} {ms : List Moment} {s s' : St} {r : Ret} (h : execWait i t ms s = some (r, s')) :
    (s' = s ∧ ∀ c, r ≠ .ok (some c)) ∨ (s' = osClose i s ∧ (∃ c, r = .ok (some c)) ∧ 0 < (s.proc i).ps) := by
  unfold execWait at h
  split at h
  · cases h
    exact .inl ⟨rfl, by simp⟩
  · have hpos : ∀ (n : Bool) k ms e, waitLoop n (s.proc i).ps k ms = some (.done e) → 0 < (s.proc i).ps := by
      intro n k
      induction k with
      | zero => intro ms e h; cases h
      | succ k ih =>
        intro ms e h
        unfold waitLoop at h
        split at h
        · cases h
        · exact ih _ _ h
        · rename_i hw
          cases h
          by_contra hc
          cases ms with
          | nil => cases hw
          | cons m ms =>
            rw [waitid, if_pos (by omega)] at hw
            cases hw
    split at h
    · cases h
    · cases h
      exact .inl ⟨rfl, by simp⟩
    · cases h
      exact .inl ⟨rfl, by simp⟩
    · rename_i hw
      cases h
      exact .inr ⟨rfl, ⟨_, rfl⟩, hpos _ _ _ _ hw⟩

theorem osClose_inv {i : Nat} {s : St} {H : Live} {r : Rec} (h : Inv s H) (hi : H i = some r) (hp : 0 < r.ps) :
    Inv (osClose i s) (Function.update H i none) ∧ valid s.tab i = true ∧ getFd s.tab i = r.ps := by
  obtain ⟨_, r2, r3, r4, _⟩ := h.rc i r hi
  have hv : valid s.tab i = true := by
    simp only [valid, Int.toNat_natCast, Bool.and_eq_true, decide_eq_true_eq]
    exact ⟨⟨⟨by omega, by omega⟩, by rw [h.used, hi]; rfl⟩, by omega⟩
  have hg : getFd s.tab i = r.ps := by
    unfold getFd
    rw [if_pos hv]
    simpa using r2
  refine ⟨⟨fun j => ?_, fun j q hj => ?_, ?_⟩, hv, hg⟩
  · simp only [osClose, Io.Pseudo.osClose, Io.Pseudo.freeFd, hv]
    rw [if_neg (by omega)]
    simp only [if_true, Int.toNat_natCast]
    by_cases hji : j = i
    · subst hji; simp
    · simp [hji, h.used]
  · by_cases hji : j = i
    · subst hji; simp at hj
    · simp [hji] at hj
      obtain ⟨q1, q2, q3, q4, q5⟩ := h.rc j q hj
      refine ⟨q1, ?_, q3, ?_, q5⟩
      · simp only [osClose, Io.Pseudo.osClose, Io.Pseudo.freeFd, hv]
        rw [if_neg (by omega)]
        simp only [if_true, Int.toNat_natCast]
        simp [hji, q2]
      · simp only [osClose, Io.Pseudo.osClose, Io.Pseudo.freeFd, hv]
        rw [if_neg (by omega)]
        exact q4
  · simp only [osClose, Io.Pseudo.osClose, Io.Pseudo.freeFd, hv]
    rw [if_neg (by omega)]
    exact h.size

theorem step_inv {s s' : St} {H : Live} {o : Op} {r : Nat × Option Ret} (h : Inv s H)
    (hw : ∀ i t ms, o = .wait i t ms → (H i).isSome)
    (hf : ∀ d a efd fork, o = .start d a efd fork → (fork = -1 ∨ 0 < fork) ∧ (efd = -1 ∨ 0 < efd))
    (hs : step s o = .ok (r, s')) : Inv s' (specStep H o r) := by
  cases o with
  | start d a efd fork =>
    simp only [step] at hs
    obtain ⟨⟨i, s1⟩, h1, h2⟩ := Res.bind_eq_ok.1 hs
    cases h2
    exact (start_inv h (hf _ _ _ _ rfl).1 h1).1
  | wait i t ms =>
    simp only [step] at hs
    cases he : execWait i t ms s with
    | none =>
      rw [he] at hs
      cases hs
      exact h
    | some p =>
      obtain ⟨q, s1⟩ := p
      rw [he] at hs
      cases hs
      obtain ⟨rc, hrc⟩ := Option.isSome_iff_exists.1 (hw _ _ _ rfl)
      rcases wait_cases he with ⟨rfl, hq⟩ | ⟨rfl, ⟨c, rfl⟩, hp⟩
      · have : specStep H (.wait i t ms) (0, some q) = H := by
          cases q with
          | fail e => rfl
          | ok c =>
            cases c with
            | none => rfl
            | some c => exact absurd rfl (hq c)
        rw [this]
        exact h
      · rw [(h.rc i rc hrc).1] at hp
        exact (osClose_inv h hrc hp).1

theorem init_inv (opn : Int → Bool) : Inv (St.init opn) (fun _ => none) :=
  ⟨fun _ => rfl, (fun _ _ h => by cases h), Nat.le_refl _⟩

theorem hist_inv {s s' : St} {H H' : Live} {os : List Op} (hh : Hist s H os s' H') (h : Inv s H) : Inv s' H' := by
  induction hh with
  | nil => exact h
  | cons hw hf hs _ ih => exact ih (step_inv h hw hf hs)

/-! ## C82: descriptors -/

/-- C82: finishing a wait closes nothing of the caller's but the event descriptor that `exec` opened for this process,
provided that the number of the process is not the number of an open descriptor. -/
theorem wait_closes_own_partial (opn : Int → Bool) (os : List Op) (s s' : St) (H : Live)
    (hh : Hist (St.init opn) (fun _ => none) os s H) (i t : Nat) (r : Rec) (hi : H i = some r) (ms : List Moment) (c : Int)
    (h : execWait i t ms s = some (.ok (some c), s')) (hp : s.opn r.ps = false) :
    ∀ d, s'.opn d = if d = r.eventFd then false else s.opn d := by
  have inv := hist_inv hh (init_inv opn)
  obtain ⟨r1, _⟩ := inv.rc i r hi
  rcases wait_cases h with ⟨_, hq⟩ | ⟨rfl, _, hps⟩
  · exact absurd rfl (hq c)
  · rw [r1] at hps
    obtain ⟨_, hv, hg⟩ := osClose_inv inv hi hps
    intro d
    simp only [osClose, hv, hg, if_true, closeOne, r1]
    by_cases h1 : d = r.ps
    · subst h1
      simp [hp]
    · by_cases h2 : d = r.eventFd <;> simp [h1, h2]
      subst h2
      simp [h1]

/-- C82 is false in general: when the number of the process is the number of an open descriptor of the caller (small process
numbers are usual in containers), finishing the wait closes this descriptor. -/
theorem wait_closes_descriptor_numbered_as_process (opn : Int → Bool) (os : List Op) (s s' : St) (H : Live)
    (hh : Hist (St.init opn) (fun _ => none) os s H) (i t : Nat) (r : Rec) (hi : H i = some r) (ms : List Moment) (c : Int)
    (h : execWait i t ms s = some (.ok (some c), s')) : s'.opn r.ps = false := by
  have inv := hist_inv hh (init_inv opn)
  obtain ⟨r1, _⟩ := inv.rc i r hi
  rcases wait_cases h with ⟨_, hq⟩ | ⟨rfl, _, hps⟩
  · exact absurd rfl (hq c)
  · rw [r1] at hps
    obtain ⟨_, hv, hg⟩ := osClose_inv inv hi hps
    simp only [osClose, hv, hg, if_true, closeOne]
    simp

/-! ## C83: handles -/

/-- Handles that are live. -/
def liveCount (s : St) : Nat := ((Finset.Ico 1 s.tab.size).filter fun i => s.tab.used i = true).card

/-- C83: `exec` never hands out the handle of a process that was started and not yet waited for, and other handles are
left alone. -/
theorem handle_is_fresh (opn : Int → Bool) (os : List Op) (s s' : St) (H : Live)
    (hh : Hist (St.init opn) (fun _ => none) os s H) (d : Bool) (a : Option Nat) (efd fork : Int)
    (hf : fork = -1 ∨ 0 < fork) (i : Nat) (h : start d a efd fork s = .ok (i, s')) :
    0 < i ∧ H i = none ∧ s'.proc i = ⟨d, fork, efd⟩ ∧ ∀ j r, H j = some r → s'.proc j = r := by
  have inv := hist_inv hh (init_inv opn)
  obtain ⟨inv', hn, _⟩ := start_inv inv hf h
  have h1 := inv'.rc i ⟨d, fork, efd⟩ (by simp)
  refine ⟨h1.2.2.1, hn, h1.1, fun j r hj => (inv'.rc j r ?_).1⟩
  have : j ≠ i := fun e => by rw [e, hn] at hj; cases hj
  simp [this, hj]

/-- C83: while fewer than 255 processes are unfinished (started, and not waited for successfully), starting one is safe. -/
theorem start_safe_partial (opn : Int → Bool) (os : List Op) (s : St) (H : Live)
    (hh : Hist (St.init opn) (fun _ => none) os s H) (d : Bool) (efd fork : Int) (he : 0 < efd)
    (hc : liveCount s < 255) : ∃ i s', start d none efd fork s = .ok (i, s') := by
  have inv := hist_inv hh (init_inv opn)
  have hex : ∃ i, 1 ≤ i ∧ i < s.tab.size ∧ s.tab.used i = false := by
    by_contra hno
    push Not at hno
    have : liveCount s = (Finset.Ico 1 s.tab.size).card := by
      unfold liveCount
      congr 1
      refine Finset.filter_true_of_mem fun i hi => ?_
      rw [Finset.mem_Ico] at hi
      simpa using hno i hi.1 hi.2
    rw [Nat.card_Ico] at this
    have := inv.size
    omega
  have hp : ∃ i, pick s.tab efd (-1) = some i := by
    unfold pick
    rw [if_neg (by omega), if_pos he]
    split
    · exact ⟨_, rfl⟩
    · obtain ⟨i, h1, h2, h3⟩ := hex
      rw [← Option.isSome_iff_exists, List.find?_isSome]
      exact ⟨i, by simpa using h2, by simp [h1, h3]⟩
  obtain ⟨i, hi⟩ := hp
  unfold start
  rw [newFd_def]
  simp only [show grown none s.tab = s.tab from rfl, hi]
  exact ⟨i, _, rfl⟩

/-- Starting processes one after the other without waiting, with event descriptors `efds` and process numbers. -/
def startAll (s : St) : List (Bool × Int × Int) → Res St
  | [] => .ok s
  | (d, efd, fork) :: l => do
    let (_, s) ← start d none efd fork s
    startAll s l

/-- C83 is false in general: starting 256 processes, detached ones (which can never be waited for) or others, without
waiting accesses memory in front of the table. -/
theorem many_processes_ub (opn : Int → Bool) (l : List (Bool × Int × Int)) (hl : 256 ≤ l.length)
    (hf : ∀ p ∈ l, p.2.2 = -1 ∨ 0 < p.2.2) : startAll (St.init opn) l = .ub := by
  have key : ∀ (l : List (Bool × Int × Int)) (s : St) (H : Live), Inv s H → s.tab.size = 256 →
      (∀ p ∈ l, p.2.2 = -1 ∨ 0 < p.2.2) → 255 < l.length + liveCount s → startAll s l = .ub := by
    intro l
    induction l with
    | nil =>
      intro s H _ hs _ hc
      have : liveCount s ≤ (Finset.Ico 1 s.tab.size).card := Finset.card_filter_le _ _
      rw [Nat.card_Ico, hs] at this
      simp at hc
      omega
    | cons p l ih =>
      obtain ⟨d, efd, fork⟩ := p
      intro s H inv hs hf hc
      simp only [startAll]
      cases hst : start d none efd fork s with
      | ub => rfl
      | ok q =>
        obtain ⟨i, s'⟩ := q
        simp only [Res.ok_bind]
        obtain ⟨inv', hn, _⟩ := start_inv inv (hf (d, efd, fork) (by simp)) hst
        obtain ⟨hp, hs'⟩ := start_eq hst
        obtain ⟨_, hu, h1, h2⟩ := pick_neg hp
        have hg : grown none s.tab = s.tab := rfl
        rw [hg] at hp hu h2 hs'
        have hsz : s'.tab.size = 256 := by rw [hs']; exact hs
        refine ih s' _ inv' hsz (fun p hp => hf p (by simp [hp])) ?_
        have : liveCount s' = liveCount s + 1 := by
          unfold liveCount
          rw [hsz, hs]
          have e : ((Finset.Ico 1 256).filter fun j => s'.tab.used j = true) =
              insert i ((Finset.Ico 1 256).filter fun j => s.tab.used j = true) := by
            ext j
            rw [hs']
            simp only [Finset.mem_filter, Finset.mem_Ico, Finset.mem_insert]
            by_cases hji : j = i
            · subst hji
              simp
              omega
            · simp [hji]
          rw [e, Finset.card_insert_of_notMem (by simp [hu])]
        rw [this]
        simp only [List.length_cons] at hc
        omega
  refine key l (St.init opn) _ (init_inv opn) rfl hf ?_
  omega

/-- C83 is false when descriptors run out: without an event descriptor the same happens with the first process. -/
theorem no_event_descriptor_ub (d : Bool) (a : Option Nat) (fork : Int) (s : St) : start d a (-1) fork s = .ub := by
  unfold start
  rw [newFd_def]
  have : pick (grown a s.tab) (-1) (-1) = none := by
    unfold pick
    rw [if_neg (by omega), if_neg (by omega)]
  rw [this]

/-! ## C84: failed starts -/

/-- C84 is false: when `vfork` fails, `exec` returns a positive handle as if the process had been started, with process
number -1. -/
theorem failed_start_reported_as_success (opn : Int → Bool) (os : List Op) (s : St) (H : Live)
    (hh : Hist (St.init opn) (fun _ => none) os s H) (d : Bool) (efd : Int) (he : 0 < efd) (hc : liveCount s < 255) :
    ∃ i s', start d none efd (-1) s = .ok (i, s') ∧ 0 < i ∧ (s'.proc i).ps = -1 := by
  obtain ⟨i, s', h⟩ := start_safe_partial opn os s H hh d efd (-1) he hc
  obtain ⟨h1, _, h3, _⟩ := handle_is_fresh opn os s s' H hh d none efd (-1) (.inl rfl) i h
  exact ⟨i, s', h, h1, by rw [h3]⟩

/-- C84, what the caller can notice: only a wait fails, and not with "timed out"; the handle and its event descriptor are
never released, whatever is done afterwards. -/
theorem failed_start_never_released (opn : Int → Bool) (os os' : List Op) (s s' : St) (H H' : Live) (i : Nat) (r : Rec)
    (hh : Hist (St.init opn) (fun _ => none) os s H) (hi : H i = some r) (hp : r.ps = -1)
    (hh' : Hist s H os' s' H') :
    H' i = some r ∧ s'.tab.used i = true ∧
      (r.detached = false → ∀ t m ms, execWait i t (m :: ms) s' = some (.fail .einval, s')) := by
  have inv := hist_inv hh (init_inv opn)
  clear hh
  suffices hk : H' i = some r by
    have inv' := hist_inv hh' inv
    refine ⟨hk, by rw [inv'.used, hk]; rfl, fun hd t m ms => ?_⟩
    have hr := (inv'.rc i r hk).1
    unfold execWait
    rw [hr, hd, hp]
    simp [waitLoop, waitid]
  induction hh' with
  | nil => exact hi
  | @cons s s1 s2 H H2 o os q hw hf hs _ ih =>
    refine ih ?_ (step_inv inv hw hf hs)
    cases o with
    | start d a efd fork =>
      simp only [step] at hs
      obtain ⟨⟨j, s1'⟩, h1, h2⟩ := Res.bind_eq_ok.1 hs
      cases h2
      obtain ⟨_, hn, _⟩ := start_inv inv (hf _ _ _ _ rfl).1 h1
      have : i ≠ j := fun e => by rw [← e, hi] at hn; cases hn
      simp [specStep, this, hi]
    | wait j t ms =>
      by_cases hji : j = i
      · subst hji
        simp only [step] at hs
        cases he : execWait j t ms s with
        | none => rw [he] at hs; cases hs; exact hi
        | some p =>
          obtain ⟨r', s1'⟩ := p
          rw [he] at hs
          cases hs
          rcases wait_cases he with ⟨_, hq⟩ | ⟨_, _, hps⟩
          · cases r' with
            | fail e => exact hi
            | ok c =>
              cases c with
              | none => exact hi
              | some c => exact absurd rfl (hq c)
          · rw [(inv.rc j r hi).1, hp] at hps
            exact absurd hps (by decide)
      · obtain ⟨q1, q2⟩ := q
        cases q2 with
        | none => exact hi
        | some q2 =>
          cases q2 with
          | fail e => exact hi
          | ok c =>
            cases c with
            | none => exact hi
            | some c => simp [specStep, Ne.symm hji, hi]

/-! ## Concrete cases -/

/-- Descriptors 0 to 7 are open. -/
def eight : Int → Bool := fun d => decide (0 ≤ d ∧ d < 8)

/-- A process with number 7 is started (event descriptor 8), is interrupted, runs and exits with status 3: descriptor 7 is
closed by the wait. -/
example : ∃ s, start false none 8 7 (St.init eight) = .ok (8, s) ∧ s.opn 7 = true ∧
    ∃ s', execWait 8 100 [⟨.running, true⟩, ⟨.running, false⟩, ⟨.ended (.exited 3), false⟩] s = some (.ok (some 3), s') ∧
      s'.opn 7 = false ∧ s'.opn 6 = true := by
  refine ⟨_, rfl, rfl, _, rfl, rfl, rfl⟩

example : Hist (St.init eight) (fun _ => none) [.start false none 8 (-1)]
    ⟨⟨256, Function.update (fun _ => false) 8 true, Function.update (Function.update (fun _ => 0) 8 (-1)) 8 (-1), []⟩,
      Function.update (fun _ => ⟨false, 0, 0⟩) 8 ⟨false, -1, 8⟩, Function.update eight 8 true⟩
    (Function.update (fun _ => none) 8 (some ⟨false, -1, 8⟩)) :=
  .cons (by simp) (by simp) (r := (8, none)) rfl (.nil _ _)

end Verif.Proc
