import Verif.Proc.ExecProps

/-!
# C80: the standard streams of a started program
-/

namespace Verif.Proc

open Verif.Str

/-- What descriptor `std` of the new program should be connected to: to what the caller has at `d`, or, for `inherit`, to
what the caller has at `std`. -/
def wanted (fds : Fds) (d std : Int) : Option Nat := if d = -1 then fds std else fds d

theorem redirect_exec {f : Fds} {src dst other : Int} (h : src ≠ -1 → (f src).isSome) :
    ∃ f', redirect f src dst other false = some f' ∧ (f' dst = if src = -1 then f dst else f src) ∧
      ∀ d, d ≠ dst → f' d = f d := by
  unfold redirect
  by_cases hs : src = -1
  · subst hs
    exact ⟨f, by simp, by simp, fun _ _ => rfl⟩
  · obtain ⟨x, hx⟩ := Option.isSome_iff_exists.1 (h hs)
    refine ⟨Function.update f dst (some x), by simp [hs, dup2, hx], by simp [hs, hx], fun d hd => by simp [hd]⟩

theorem redirect_spawn {f : Fds} {src dst other : Int} (hs : src ≠ -1) (h : (f src).isSome) (ho : other ≠ dst) :
    ∃ f', redirect f src dst other true = some f' ∧ f' dst = f src ∧ f' other = none ∧
      ∀ d, d ≠ dst → d ≠ other → f' d = f d := by
  unfold redirect
  obtain ⟨x, hx⟩ := Option.isSome_iff_exists.1 h
  refine ⟨Function.update (Function.update f dst (some x)) other none, by simp [hs, dup2, hx, closeFd], ?_, by simp,
    fun d hd hd2 => by simp [hd, hd2]⟩
  simp [Ne.symm ho, hx]

/-- C80: a program started with `exec` has as standard input, output and error what the caller named for each (a descriptor
of its own, or `inherit`), and all the other descriptors as the caller; it does run.  Not covered: descriptor 0 for output or
error, and descriptor 1 for error while output goes elsewhere. -/
theorem streams_connected_partial (command : Bytes) (args env : Option Bytes) (detached sidOk : Bool) (i o e : Int)
    (fds : Fds) (hc : NulFree command) (ha : ∀ a, args = some a → NulFree a)
    (he : ∀ v, env = some v → NulFree v ∧ v.length < 2 ^ 31) (hsid : detached = true → sidOk = true)
    (hi : i ≠ -1 → (fds i).isSome) (ho : o ≠ -1 → (fds o).isSome) (hr : e ≠ -1 → (fds e).isSome)
    (ho0 : o ≠ 0) (he0 : e ≠ 0) (he1 : e = 1 → o = -1 ∨ o = 1) :
    ∃ argv envv fds', exec sidOk true command args env detached i o e fds = .ok (.runs command argv envv fds' detached) ∧
      fds' 0 = wanted fds i 0 ∧ fds' 1 = wanted fds o 1 ∧ fds' 2 = wanted fds e 2 ∧
      ∀ d, d ≠ 0 → d ≠ 1 → d ≠ 2 → fds' d = fds d := by
  obtain ⟨av, ev, _, _, _, h2⟩ := exec_eq sidOk true command args env detached i o e fds hc ha he
  have hi' : (if i ≠ 0 then i else (-1 : Int)) ≠ -1 → (fds (if i ≠ 0 then i else (-1 : Int))).isSome := by
    intro h
    by_cases hz : i = 0
    · simp [hz] at h
    · simp only [hz, ne_eq, not_false_eq_true, if_true] at h ⊢
      exact hi h
  obtain ⟨f1, r1, a1, b1⟩ := redirect_exec (f := fds) (dst := 0) (other := if i ≠ 0 then i else -1) hi'
  obtain ⟨f2, r2, a2, b2⟩ := redirect_exec (f := f1) (src := o) (dst := 1) (other := -1)
    (fun h => by rw [b1 o ho0]; exact ho h)
  have he2 : e ≠ -1 → (f2 e).isSome := by
    intro h
    by_cases h1 : e = 1
    · subst h1
      rw [a2]
      split
      · rw [b1 1 (by decide)]; exact hr h
      · rw [b1 o ho0]
        rename_i hne
        exact ho hne
    · rw [b2 e h1, b1 e he0]
      exact hr h
  obtain ⟨f3, r3, a3, b3⟩ := redirect_exec (f := f2) (src := e) (dst := 2) (other := -1) he2
  refine ⟨av, ev.getD [], f3, ?_, ?_, ?_, ?_, ?_⟩
  · rw [h2]
    have hd : (detached && !sidOk) = false := by
      cases detached
      · rfl
      · simp [hsid rfl]
    simp only [child, streams, freshInfo, inherit, ho0, he0, hd, ne_eq, not_false_eq_true, if_true, Bool.false_eq_true, if_false]
    simp only [ne_eq] at r1
    simp only [r1, r2, r3]
    rfl
  · rw [b3 0 (by decide), b2 0 (by decide), a1]
    unfold wanted
    by_cases hz : i = 0
    · simp [hz]
    · simp [hz]
  · rw [b3 1 (by decide), a2]
    unfold wanted
    split
    · exact b1 1 (by decide)
    · exact b1 o ho0
  · rw [a3]
    unfold wanted
    split
    · rw [b2 2 (by decide), b1 2 (by decide)]
    · by_cases h1 : e = 1
      · subst h1
        rw [a2]
        rcases he1 rfl with h | h
        · simp only [h, if_true]
          exact b1 1 (by decide)
        · subst h
          simp only [show ¬ ((1 : Int) = -1) by decide, if_false]
          exact b1 1 (by decide)
      · rw [b2 e h1, b1 e he0]
  · intro d h0 h1 h2'
    rw [b3 d h2', b2 d h1, b1 d h0]

/-- C80, failure: if one of the named descriptors is not open, the program is not run and the child ends with status 255. -/
theorem closed_stream_ends_child (command : Bytes) (args env : Option Bytes) (detached sidOk runnable : Bool) (i o e : Int)
    (fds : Fds) (hc : NulFree command) (ha : ∀ a, args = some a → NulFree a)
    (he : ∀ v, env = some v → NulFree v ∧ v.length < 2 ^ 31) (hi : i ≠ 0) (hi1 : i ≠ -1) (hx : fds i = none) :
    exec sidOk runnable command args env detached i o e fds = .ok .exit255 := by
  obtain ⟨av, ev, _, _, _, h2⟩ := exec_eq sidOk runnable command args env detached i o e fds hc ha he
  rw [h2]
  unfold child
  split
  · rfl
  · have : redirect fds i 0 i false = none := by simp [redirect, hi1, dup2, hx]
    simp [streams, freshInfo, hi, this]

/-- C80 is false for descriptor 0: a caller that names descriptor 0 for the output of the program gets its own output
instead. -/
theorem descriptor_zero_ignored (command : Bytes) (args env : Option Bytes) (detached sidOk : Bool) (i e : Int) (fds : Fds)
    (hc : NulFree command) (ha : ∀ a, args = some a → NulFree a)
    (he : ∀ v, env = some v → NulFree v ∧ v.length < 2 ^ 31) (hsid : detached = true → sidOk = true)
    (hi : i ≠ -1 → (fds i).isSome) (hr : e ≠ -1 → (fds e).isSome) (he0 : e ≠ 0) :
    ∃ argv envv fds', exec sidOk true command args env detached i 0 e fds = .ok (.runs command argv envv fds' detached) ∧
      fds' 1 = fds 1 := by
  obtain ⟨argv, envv, fds', h, _, h1, _⟩ := streams_connected_partial command args env detached sidOk i (-1) e fds hc ha he
    hsid hi (by simp) hr (by decide) he0 (fun _ => .inl rfl)
  refine ⟨argv, envv, fds', ?_, by simpa [wanted] using h1⟩
  rw [← h]
  have : ∀ env, execInfo env detached i 0 e = execInfo env detached i (-1) e := by
    intro env
    unfold execInfo
    cases env with
    | none => simp [freshInfo, inherit]; split_ifs <;> rfl
    | some v =>
      simp only
      cases strHas (cstr v) (cstr eqs) with
      | ub => rfl
      | ok b =>
        simp only [Res.ok_bind]
        cases (if b = true then strHas (cstr v) (cstr semi) else .ok false : Res Bool) with
        | ub => rfl
        | ok c =>
          simp only [Res.ok_bind]
          cases hbc : (b && c)
          · simp [freshInfo, inherit]; split_ifs <;> rfl
          · simp only [if_true]
            cases splitVec v semi with
            | ub => rfl
            | ok w => simp [freshInfo, inherit]; split_ifs <;> rfl
  unfold exec
  rw [this]

/-- C80 is false for exchanged streams: naming 2 for the output and 1 for the errors sends both to what 2 was. -/
theorem exchanged_streams_collapse (command : Bytes) (args env : Option Bytes) (detached sidOk : Bool) (i : Int) (fds : Fds)
    (hc : NulFree command) (ha : ∀ a, args = some a → NulFree a)
    (he : ∀ v, env = some v → NulFree v ∧ v.length < 2 ^ 31) (hsid : detached = true → sidOk = true)
    (hi : i ≠ -1 → (fds i).isSome) (h2 : (fds 2).isSome) :
    ∃ argv envv fds', exec sidOk true command args env detached i 2 1 fds = .ok (.runs command argv envv fds' detached) ∧
      fds' 1 = fds 2 ∧ fds' 2 = fds 2 := by
  obtain ⟨av, ev, _, _, _, h3⟩ := exec_eq sidOk true command args env detached i 2 1 fds hc ha he
  have hi' : (if i ≠ 0 then i else (-1 : Int)) ≠ -1 → (fds (if i ≠ 0 then i else (-1 : Int))).isSome := by
    intro h
    by_cases hz : i = 0
    · simp [hz] at h
    · simp only [hz, ne_eq, not_false_eq_true, if_true] at h ⊢
      exact hi h
  obtain ⟨f1, r1, a1, b1⟩ := redirect_exec (f := fds) (dst := 0) (other := if i ≠ 0 then i else -1) hi'
  obtain ⟨f2, r2, a2, b2⟩ := redirect_exec (f := f1) (src := 2) (dst := 1) (other := -1)
    (fun _ => by rw [b1 2 (by decide)]; exact h2)
  have e2 : f2 1 = fds 2 := by rw [a2]; simp [b1 2 (by decide)]
  obtain ⟨f3, r3, a3, b3⟩ := redirect_exec (f := f2) (src := 1) (dst := 2) (other := -1) (fun _ => by rw [e2]; exact h2)
  refine ⟨av, ev.getD [], f3, ?_, ?_, ?_⟩
  · rw [h3]
    have hd : (detached && !sidOk) = false := by
      cases detached
      · rfl
      · simp [hsid rfl]
    simp only [child, streams, freshInfo, inherit, hd, ne_eq, Bool.false_eq_true, if_false, show ¬ ((2 : Int) = 0) by decide,
      show ¬ ((1 : Int) = 0) by decide, not_false_eq_true, if_true]
    simp only [ne_eq] at r1
    simp only [r1, r2, r3]
    rfl
  · rw [b3 1 (by decide), e2]
  · rw [a3]
    simpa using e2

/-- C80, spawned programs (input and output handled by the caller): standard input is the read side of the first pipe,
standard output the write side of the second, the caller's sides of these are closed in the child; errors go where those of
the caller go.  Needs pipes on descriptors above 2 (not so if the caller has closed its own standard streams). -/
theorem spawned_streams_partial (file : Bytes) (info : Info) (i0 i1 o0 o1 : Int) (fds : Fds) (sidOk : Bool)
    (hd : info.detached = true → sidOk = true) (h : ∀ d ∈ [i0, i1, o0, o1], 2 < d ∧ (fds d).isSome)
    (hn : [i0, i1, o0, o1].Nodup) (he : info.er1 = -1) :
    ∃ fds', child sidOk true file (spawnInfo info i0 i1 o0 o1 none) fds =
        .runs file (info.argv.getD []) (info.env.getD []) fds' info.detached ∧
      fds' 0 = fds i0 ∧ fds' 1 = fds o1 ∧ fds' 2 = fds 2 ∧ fds' i1 = none ∧ fds' o0 = none ∧
      ∀ d, d ≠ 0 → d ≠ 1 → d ≠ i1 → d ≠ o0 → fds' d = fds d := by
  have h1 := h i0 (by simp)
  have h2 := h i1 (by simp)
  have h3 := h o0 (by simp)
  have h4 := h o1 (by simp)
  simp only [List.nodup_cons, List.mem_cons, List.not_mem_nil, or_false, not_or] at hn
  obtain ⟨f1, r1, a1, c1, b1⟩ := redirect_spawn (f := fds) (src := i0) (dst := 0) (other := i1) (by omega) h1.2 (by omega)
  have e1 : f1 o1 = fds o1 := b1 o1 (by omega) (by omega)
  obtain ⟨f2, r2, a2, c2, b2⟩ := redirect_spawn (f := f1) (src := o1) (dst := 1) (other := o0) (by omega)
    (by rw [e1]; exact h4.2) (by omega)
  refine ⟨f2, ?_, ?_, ?_, ?_, ?_, c2, ?_⟩
  · have hdd : (info.detached && !sidOk) = false := by
      cases hdt : info.detached
      · rfl
      · simp [hd hdt]
    have r3 : redirect f2 (-1) 2 info.er0 true = some f2 := by simp [redirect]
    simp only [child, spawnInfo, hdd, if_true, r1, r2, he, r3, Bool.false_eq_true, if_false]
    rfl
  · rw [b2 0 (by decide) (by omega), a1]
  · rw [a2, e1]
  · rw [b2 2 (by decide) (by omega), b1 2 (by decide) (by omega)]
  · rw [b2 i1 (by omega) (by omega), c1]
  · intro d d0 d1 d2 d3
    rw [b2 d d1 d3, b1 d d0 d2]

/-- C80, what else a spawned program holds: every other descriptor of the caller, in particular the caller's side `w` of the
input pipe of another running child; that child does not see the end of its input when the caller closes `w`. -/
theorem spawned_keeps_other_pipes (file : Bytes) (info : Info) (i0 i1 o0 o1 w : Int) (fds : Fds) (sidOk : Bool)
    (hd : info.detached = true → sidOk = true) (h : ∀ d ∈ [i0, i1, o0, o1], 2 < d ∧ (fds d).isSome)
    (hn : [i0, i1, o0, o1, w].Nodup) (he : info.er1 = -1) (hw : 2 < w) :
    ∃ argv env fds' s, child sidOk true file (spawnInfo info i0 i1 o0 o1 none) fds = .runs file argv env fds' s ∧
      fds' w = fds w := by
  have hn4 : [i0, i1, o0, o1].Nodup := by
    have : [i0, i1, o0, o1, w] = [i0, i1, o0, o1] ++ [w] := rfl
    rw [this] at hn
    exact (List.nodup_append.1 hn).1
  obtain ⟨f, h1, _, _, _, _, _, h2⟩ := spawned_streams_partial file info i0 i1 o0 o1 fds sidOk hd h hn4 he
  simp only [List.nodup_cons, List.mem_cons, List.not_mem_nil, or_false, not_or] at hn
  exact ⟨_, _, f, _, h1, h2 w (by omega) (by omega) (by omega) (by omega)⟩

/-! ## Concrete cases -/

/-- A caller with descriptors 0 to 9 open. -/
def ten : Fds := fun d => if 0 ≤ d ∧ d < 10 then some d.toNat else none

/-- `exec("ls", "-l,x", exec_info("A=1;B=2", false, 5, 6, inherit))` -/
example : ∃ f, exec true true [108, 115] (some [45, 108, 44, 120]) (some [65, 61, 49, 59, 66, 61, 50]) false 5 6 (-1) ten
    = .ok (.runs [108, 115] [[108, 115], [45, 108], [120]] [[65, 61, 49], [66, 61, 50]] f false) ∧
    f 0 = some 5 ∧ f 1 = some 6 ∧ f 2 = some 2 := by
  obtain ⟨argv, envv, f, h, h0, h1, h2, _⟩ := streams_connected_partial [108, 115] (some [45, 108, 44, 120])
    (some [65, 61, 49, 59, 66, 61, 50]) false true 5 6 (-1) ten (by decide) (by simp; decide) (by simp; decide) (by simp)
    (by decide) (by decide) (by decide) (by decide) (by decide) (by decide)
  obtain ⟨c, h3, h4⟩ := arguments_exact_partial true true [108, 115] [[45, 108], [120]] (some [65, 61, 49, 59, 66, 61, 50])
    false 5 6 (-1) ten (by decide) (by decide) (by decide) (by decide) (by decide) (by simp; decide)
  obtain ⟨c', h5, h6⟩ := environment_exact_partial true true [108, 115] (some [45, 108, 44, 120])
    [[65, 61, 49], [66, 61, 50]] false 5 6 (-1) ten (by decide) (by simp; decide) (by decide) (by decide) (by decide)
    (by decide) (by decide)
  have e3 := (h3.symm.trans h)
  have e5 := (h5.symm.trans h)
  cases Res.ok.inj e3
  cases Res.ok.inj e5
  obtain ⟨_, rfl⟩ := h4 _ _ _ _ _ rfl
  obtain rfl := h6 _ _ _ _ _ rfl
  exact ⟨f, h, h0, h1, h2⟩

/-- `spawn` with pipes 4→5 and 6→7, another child's input pipe at 9 -/
example : ∃ argv env f s, child true true [108] (spawnInfo { freshInfo with argv := some [[108]] } 4 5 6 7 none) ten =
    .runs [108] argv env f s ∧ f 9 = some 9 :=
  spawned_keeps_other_pipes [108] { freshInfo with argv := some [[108]] } 4 5 6 7 9 ten true (by simp) (by decide) (by decide)
    rfl (by decide)

end Verif.Proc
