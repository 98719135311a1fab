import Verif.Proc.WaitProps

/-!
# `spawn_is_finish` and handles that are used again, C87

A spawned process is known to the caller by a pointer into the table, here the index of its entry.
-/

namespace Verif.Proc.Finish

open Verif.Proc

/-- The table with the `context` of each entry (`true`: not NULL).  `events_new_fd` does not touch it. -/
structure FS where
  s : St
  ctx : Nat → Bool

/-- `spawn_ex` and `spawning` up to its first yield, src/async_io.c:847-902 and 757-785, with process number `fork`. -/
def spawn (efd fork : Int) (f : FS) : Res (Nat × FS) := do
  let (i, s) ← start false none efd fork f.s
  .ok (i, ⟨s, Function.update f.ctx i true⟩)

/-- The turn of `spawning` that finds the process ended with `e`, src/async_io.c:787-792. -/
def reap (i : Nat) (e : End) (f : FS) : FS :=
  match execWait i 0 [⟨.ended e, false⟩] f.s with
  | some (.ok _, s) => ⟨s, Function.update f.ctx i false⟩
  | _ => f

/-- `spawn_is_finish`, src/async_io.c:927-929; the task of a `context` that is set has not ended. -/
def isFinish (f : FS) (i : Nat) : Bool := !f.ctx i

inductive Op where
  | spawn (efd fork : Int)
  | reap (i : Nat) (e : End)

/-- A history with the handles that `spawn` returned, newest first. -/
def run : FS → List Op → Res (FS × List Nat)
  | f, [] => .ok (f, [])
  | f, .spawn efd fork :: os => do
    let (i, f) ← spawn efd fork f
    let (f, is) ← run f os
    .ok (f, is ++ [i])
  | f, .reap i e :: os => run (reap i e f) os

theorem spawn_ctx {efd fork : Int} {f f' : FS} {i : Nat} (h : spawn efd fork f = .ok (i, f')) :
    f'.ctx = Function.update f.ctx i true := by
  unfold spawn at h
  obtain ⟨⟨j, s⟩, _, h2⟩ := Res.bind_eq_ok.1 h
  cases h2
  rfl

theorem reap_ctx (i : Nat) (e : End) (f : FS) (j : Nat) (h : f.ctx j = false) : (reap i e f).ctx j = false := by
  unfold reap
  split
  · simp only [Function.update_apply]
    split
    · rfl
    · exact h
  · exact h

/-- C87: a process that is found finished stays so while no later `spawn` returns the same handle. -/
theorem finished_stays_partial (f f' : FS) (os : List Op) (is : List Nat) (i : Nat) (h : isFinish f i = true)
    (hr : run f os = .ok (f', is)) (hi : i ∉ is) : isFinish f' i = true := by
  induction os generalizing f is with
  | nil => cases hr; exact h
  | cons o os ih =>
    cases o with
    | spawn efd fork =>
      simp only [run] at hr
      obtain ⟨⟨j, f1⟩, h1, h2⟩ := Res.bind_eq_ok.1 hr
      obtain ⟨⟨f2, js⟩, h3, h4⟩ := Res.bind_eq_ok.1 h2
      cases h4
      simp only [List.mem_append, List.mem_singleton, not_or] at hi
      refine ih f1 js ?_ h3 hi.1
      unfold isFinish at h ⊢
      rw [spawn_ctx h1]
      simpa [hi.2] using h
    | reap j e =>
      refine ih (reap j e f) is ?_ hr hi
      unfold isFinish at h ⊢
      rw [reap_ctx j e f i (by simpa using h)]
      rfl

/-- C87 is false in general: the process with handle `i` ends and is found finished; the kernel gives the next `spawn` the
event descriptor that was just closed, number `i`; the new process gets handle `i`, and the first one is reported as
running. -/
theorem finished_is_revived (opn : Int → Bool) (os : List Proc.Op) (s : St) (H : Live) (ctx : Nat → Bool)
    (hh : Hist (St.init opn) (fun _ => none) os s H) (i : Nat) (r : Rec) (hi : H i = some r) (hd : r.detached = false)
    (hp : 0 < r.ps) (e : End) (fork : Int) :
    isFinish (reap i e ⟨s, ctx⟩) i = true ∧
      ∃ f, spawn i fork (reap i e ⟨s, ctx⟩) = .ok (i, f) ∧ isFinish f i = false := by
  have inv := hist_inv hh (init_inv opn)
  obtain ⟨r1, _, r3, r4, _⟩ := inv.rc i r hi
  have hw : execWait i 0 [⟨.ended e, false⟩] s = some (.ok (some (exitCode e)), osClose i s) := by
    obtain ⟨q, s', h1, _, _, h2, h3⟩ := wait_zero_polls i s (by rw [r1]; exact hd) (by rw [r1]; exact hp) ⟨.ended e, false⟩ []
    rw [h1]
    cases e with
    | exited n => obtain ⟨rfl, rfl⟩ := h2 n rfl; rfl
    | killed n => obtain ⟨rfl, rfl⟩ := h3 n rfl; rfl
  have hre : reap i e ⟨s, ctx⟩ = ⟨osClose i s, Function.update ctx i false⟩ := by
    unfold reap
    simp only [hw]
  obtain ⟨inv', _, _⟩ := osClose_inv inv hi hp
  rw [hre]
  refine ⟨by simp [isFinish], ?_⟩
  have hsz : (osClose i s).tab.size = s.tab.size := by
    simp only [osClose, Io.Pseudo.osClose, Io.Pseudo.freeFd]
    rw [if_neg (by omega)]
    split <;> (try split) <;> rfl
  have hpick : Io.Pseudo.pick (osClose i s).tab i (-1) = some i := by
    unfold Io.Pseudo.pick
    rw [if_neg (by omega), if_pos (by omega), if_pos]
    · simp
    · rw [hsz]
      refine ⟨by omega, ?_⟩
      rw [Int.toNat_natCast, inv'.used]
      simp
  have hst : ∃ s', start false none i fork (osClose i s) = .ok (i, s') := by
    unfold start
    rw [newFd_def]
    simp only [show Io.Pseudo.grown none (osClose i s).tab = (osClose i s).tab from rfl, hpick]
    exact ⟨_, rfl⟩
  obtain ⟨s', hs'⟩ := hst
  refine ⟨⟨s', Function.update (Function.update ctx i false) i true⟩, ?_, by simp [isFinish]⟩
  unfold spawn
  simp only [hs', Res.ok_bind]

/-- The hypotheses hold after one start. -/
example : Hist (St.init fun _ => false) (fun _ => none) [.start false none 3 100]
    ⟨⟨256, Function.update (fun _ => false) 3 true, Function.update (Function.update (fun _ => 0) 3 (-1)) 3 100, []⟩,
      Function.update (fun _ => ⟨false, 0, 0⟩) 3 ⟨false, 100, 3⟩, Function.update (fun _ => false) 3 true⟩
    (Function.update (fun _ => none) 3 (some ⟨false, 100, 3⟩)) :=
  .cons (by simp) (by simp) (r := (3, none)) rfl (.nil _ _)

end Verif.Proc.Finish
