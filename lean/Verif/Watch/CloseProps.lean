import Verif.Watch.Lemmas

/-!
# Ending watches, and stepping through records (C74, C75)
-/

namespace Verif.Watch

/-! ## Helpers -/

theorem freeFd_slot (q : Nat) (s : St) (j : Nat) : (freeFd q s).slot j =
    if j = q ∧ q < s.size ∧ (s.slot q).used = true then
      { s.slot q with path := none, wds := if (s.slot q).sync then (s.slot q).wds else none }
    else s.slot j := by
  unfold freeFd
  by_cases h : q < s.size ∧ (s.slot q).used = true
  · rw [if_pos h, set_slot]
    by_cases e : j = q
    · simp [e, h]
    · simp [e]
  · rw [if_neg h]
    simp only [h, and_false, if_false]

@[simp] theorem freeFd_size (q : Nat) (s : St) : (freeFd q s).size = s.size := by unfold freeFd; split <;> rfl
@[simp] theorem freeFd_kern (q : Nat) (s : St) : (freeFd q s).kern = s.kern := by unfold freeFd; split <;> rfl
@[simp] theorem clear_size (q : Nat) (s : St) : (clear q s).size = s.size := rfl
@[simp] theorem clear_kern (q : Nat) (s : St) : (clear q s).kern = s.kern := rfl

theorem clearFree_other {q j : Nat} (s : St) (h : j ≠ q) : (clear q (freeFd q s)).slot j = s.slot j := by
  simp [clear, set_slot, h, freeFd_slot]

theorem clearFree_used (q : Nat) (s : St) : ((clear q (freeFd q s)).slot q).used = false := by
  simp [clear, set_slot]

theorem clearFree_path (q : Nat) (s : St) (h : q < s.size) (hu : (s.slot q).used = true) :
    ((clear q (freeFd q s)).slot q).path = none := by
  simp [clear, set_slot, freeFd_slot, h, hu]

/-- One round of the closing loop. -/
theorem closeLoop_some {p k i w : Nat} {s : St} {l : List Nat} (hl : (s.slot p).wds = some l) (hi : l[i]? = some w) (hwp : p ≠ w) :
    ∃ s1, closeLoop p (k + 1) i s = closeLoop p k (i + 1) s1 ∧ s1.size = s.size ∧ s1.kern = s.kern ∧
      s1.slot p = { s.slot p with wds := some (l.eraseIdx i) } ∧ (s1.slot w).used = false ∧
      (w < s.size → (s.slot w).used = true → (s1.slot w).path = none) ∧
      ∀ j, j ≠ p → j ≠ w → s1.slot j = s.slot j := by
  have e : ((s.slot p).wds.getD [])[i]? = some w := by rw [hl]; exact hi
  refine ⟨_, by rw [closeLoop, e], ?_, ?_, ?_, ?_, ?_, ?_⟩
  · simp
  · simp
  · rw [set_slot, if_pos rfl, clearFree_other s hwp, hl]
    rfl
  · rw [set_slot, if_neg hwp.symm]
    exact clearFree_used w s
  · intro h1 h2
    rw [set_slot, if_neg hwp.symm]
    exact clearFree_path w s h1 h2
  · intro j h1 h2
    rw [set_slot, if_neg h1]
    exact clearFree_other s h2

theorem closeLoop_none {p k i : Nat} {s : St} {l : List Nat} (hl : (s.slot p).wds = some l) (hi : l[i]? = none) :
    closeLoop p (k + 1) i s = s := by
  have e : ((s.slot p).wds.getD [])[i]? = none := by rw [hl]; exact hi
  rw [closeLoop, e]

/-- The loop from index `a.length` on: of `r`, every first of two is released. -/
theorem closeLoop_spec (p : Nat) : ∀ (n : Nat) (r a : List Nat) (s : St) (k : Nat), r.length ≤ n → r.length < k →
    (s.slot p).wds = some (a ++ r) → r.Nodup → p ∉ r →
    (closeLoop p k a.length s).size = s.size ∧ (closeLoop p k a.length s).kern = s.kern ∧
    ((closeLoop p k a.length s).slot p).used = (s.slot p).used ∧ ((closeLoop p k a.length s).slot p).fd = (s.slot p).fd ∧
    ((closeLoop p k a.length s).slot p).sync = (s.slot p).sync ∧
    (∀ j w, r[j]? = some w → j % 2 = 0 → ((closeLoop p k a.length s).slot w).used = false ∧
      (w < s.size → (s.slot w).used = true → ((closeLoop p k a.length s).slot w).path = none)) ∧
    (∀ j w, r[j]? = some w → j % 2 = 1 → (closeLoop p k a.length s).slot w = s.slot w) ∧
    (∀ w, w ∉ r → w ≠ p → (closeLoop p k a.length s).slot w = s.slot w) := by
  intro n
  induction n using Nat.strong_induction_on with
  | _ n ih =>
    intro r a s k hn hk hl hnd hp
    obtain ⟨k, rfl⟩ : ∃ k', k = k' + 1 := ⟨k - 1, by omega⟩
    match r with
    | [] =>
      rw [closeLoop_none hl (by simp)]
      refine ⟨rfl, rfl, rfl, rfl, rfl, ?_, ?_, fun _ _ _ => rfl⟩
      · intro j w h; simp at h
      · intro j w h; simp at h
    | [w] =>
      have hwp : p ≠ w := by simpa using hp
      obtain ⟨s1, e, h1, h2, h3, h4, h4', h5⟩ := closeLoop_some (k := k) hl (i := a.length) (w := w) (by simp) hwp
      obtain ⟨k, rfl⟩ : ∃ k', k = k' + 1 := ⟨k - 1, by simp at hk; omega⟩
      have hl1 : (s1.slot p).wds = some (a ++ []) := by
        rw [h3]
        simp [List.eraseIdx_append_of_length_le]
      rw [e, closeLoop_none hl1 (by simp)]
      refine ⟨h1, h2, by rw [h3], by rw [h3], by rw [h3], ?_, ?_, fun v hv hvp => h5 v hvp (by simpa using hv)⟩
      · intro j v hj _
        match j with
        | 0 => simp at hj; subst hj; exact ⟨h4, h4'⟩
        | j + 1 => simp at hj
      · intro j v hj hodd
        match j with
        | 0 => omega
        | j + 1 => simp at hj
    | w :: v :: r =>
      simp only [List.nodup_cons, List.mem_cons, not_or] at hnd hp
      obtain ⟨⟨hwv, hwr⟩, hvr, hr⟩ := hnd
      obtain ⟨hpw, hpv, hpr⟩ := hp
      obtain ⟨s1, e, h1, h2, h3, h4, h4', h5⟩ := closeLoop_some (k := k) hl (i := a.length) (w := w) (by simp) hpw
      have hl1 : (s1.slot p).wds = some ((a ++ [v]) ++ r) := by
        rw [h3]
        simp [List.eraseIdx_append_of_length_le]
      simp only [List.length_cons] at hn hk
      have hlen : (a ++ [v]).length = a.length + 1 := by simp
      have := ih r.length (by omega) r (a ++ [v]) s1 k (le_refl _) (by omega) hl1 hr hpr
      rw [hlen] at this
      obtain ⟨g1, g2, g3, g4, g5, g6, g7, g8⟩ := this
      rw [e]
      refine ⟨g1.trans h1, g2.trans h2, by rw [g3, h3], by rw [g4, h3], by rw [g5, h3], ?_, ?_, ?_⟩
      · intro j x hj heven
        match j with
        | 0 =>
          simp at hj
          subst hj
          rw [g8 w hwr (Ne.symm hpw)]
          exact ⟨h4, h4'⟩
        | 1 => omega
        | j + 2 =>
          have hj : r[j]? = some x := by simpa using hj
          have hm : x ∈ r := List.mem_of_getElem? hj
          obtain ⟨q1, q2⟩ := g6 j x hj (by omega)
          refine ⟨q1, ?_⟩
          rw [h1, h5 x (fun e => hpr (e ▸ hm)) (fun e => hwr (e ▸ hm))] at q2
          exact q2
      · intro j x hj hodd
        match j with
        | 0 => omega
        | 1 =>
          simp at hj
          subst hj
          rw [g8 v hvr (Ne.symm hpv)]
          exact h5 v (Ne.symm hpv) (Ne.symm hwv)
        | j + 2 =>
          have hj : r[j]? = some x := by simpa using hj
          have hm : x ∈ r := List.mem_of_getElem? hj
          rw [g7 j x hj (by omega)]
          exact h5 x (fun e => hpr (e ▸ hm)) (fun e => hwr (e ▸ hm))
      · intro x hx hxp
        simp only [List.mem_cons, not_or] at hx
        rw [g8 x hx.2.2 hxp]
        exact h5 x hxp hx.1

theorem valid_iff {s : St} {p : Nat} : valid s p = true ↔ p < s.size ∧ (s.slot p).used = true ∧ (s.slot p).fd ≠ -1 := by
  simp [valid, and_assoc]

theorem getFd_valid {s : St} {p : Nat} (h : valid s p = true) : getFd s p = (s.slot p).fd.toNat := by
  rw [getFd, if_pos h]

theorem osClose_valid {s : St} {p : Nat} (h : valid s p = true) :
    (osClose p s).size = s.size ∧ (osClose p s).kern (getFd s p) = (fun _ => none) ∧
    (∀ r, r ≠ getFd s p → (osClose p s).kern r = s.kern r) ∧ ((osClose p s).slot p).used = false ∧
    ((s.slot p).sync = false → ((osClose p s).slot p).wds = none) ∧
    ∀ j, j ≠ p → (osClose p s).slot j = s.slot j := by
  obtain ⟨h1, h2, h3⟩ := valid_iff.1 h
  have hv : valid (freeFd p s) p = true := by
    rw [valid_iff, freeFd_slot]
    simp [h1, h2, h3]
  have hg : getFd (freeFd p s) p = getFd s p := by
    rw [getFd_valid hv, getFd_valid h, freeFd_slot]
    simp [h1, h2]
  simp only [osClose, h, if_true, hg]
  refine ⟨?_, ?_, ?_, ?_, ?_, ?_⟩
  · simp
  · simp
  · intro r hr; simp [hr]
  · simp [clear, set_slot]
  · intro hs
    simp [clear, set_slot, freeFd_slot, h1, h2, hs]
  · intro j hj
    simp [clear, set_slot, hj, freeFd_slot]

/-! ## C74 -/

/-- Closing monitor `p` with watches `l` (in the order they were made): the kernel watches nothing of it any more and the
monitor's entry is free; of the entries of its watches the first, third, fifth, … are released and the second, fourth, …
stay in use with their paths. -/
theorem close_releases_every_second (p : Nat) (l : List Nat) (s : St) (hv : valid s p = true) (hl : (s.slot p).wds = some l)
    (hnd : l.Nodup) (hp : p ∉ l) (hu : ∀ w ∈ l, (s.slot w).used = true) :
    (closeMon p s).kern (getFd s p) = (fun _ => none) ∧ ((closeMon p s).slot p).used = false ∧
    (∀ j w, l[j]? = some w → j % 2 = 0 → ((closeMon p s).slot w).used = false) ∧
    (∀ j w, l[j]? = some w → j % 2 = 1 → ((closeMon p s).slot w).used = true ∧
      ((closeMon p s).slot w).path = (s.slot w).path) ∧
    ∀ w, w ∉ l → w ≠ p → (closeMon p s).slot w = s.slot w := by
  obtain ⟨g1, g2, g3, g4, g5, g6, g7, g8⟩ := closeLoop_spec p l.length l [] s (l.length + 1) (le_refl _) (by omega) hl hnd hp
  have e : closeMon p s = osClose p (closeLoop p (l.length + 1) 0 s) := by
    rw [closeMon, if_pos hv, hl]
    rfl
  simp only [List.length_nil] at g1 g2 g3 g4 g5 g6 g7 g8
  generalize closeLoop p (l.length + 1) 0 s = t at *
  obtain ⟨h1, h2, h3⟩ := valid_iff.1 hv
  have hvt : valid t p = true := by
    rw [valid_iff, g1, g3, g4]
    exact ⟨h1, h2, h3⟩
  have hg : getFd t p = getFd s p := by rw [getFd_valid hvt, getFd_valid hv, g4]
  obtain ⟨o1, o2, o3, o4, o5, o6⟩ := osClose_valid hvt
  rw [hg] at o2
  rw [e]
  refine ⟨o2, o4, ?_, ?_, ?_⟩
  · intro j w hj he
    rw [o6 w (fun x => hp (x ▸ List.mem_of_getElem? hj))]
    exact (g6 j w hj he).1
  · intro j w hj ho
    rw [o6 w (fun x => hp (x ▸ List.mem_of_getElem? hj)), g7 j w hj ho]
    exact ⟨hu w (List.mem_of_getElem? hj), rfl⟩
  · intro w hw hwp
    rw [o6 w hwp, g8 w hw hwp]

/-- Closing a monitor that watches at most one directory releases everything. -/
theorem close_releases_all_partial (p : Nat) (l : List Nat) (s : St) (hv : valid s p = true) (hl : (s.slot p).wds = some l)
    (hone : l.length ≤ 1) (hp : p ∉ l) (hu : ∀ w ∈ l, (s.slot w).used = true) :
    (closeMon p s).kern (getFd s p) = (fun _ => none) ∧ ((closeMon p s).slot p).used = false ∧
    (∀ w ∈ l, ((closeMon p s).slot w).used = false) ∧ ∀ w, w ∉ l → w ≠ p → (closeMon p s).slot w = s.slot w := by
  have hnd : l.Nodup := by
    match l, hone with
    | [], _ => exact List.nodup_nil
    | [_], _ => simp
  obtain ⟨a, b, c, _, d⟩ := close_releases_every_second p l s hv hl hnd hp hu
  refine ⟨a, b, fun w hw => ?_, d⟩
  obtain ⟨j, hj⟩ := List.getElem?_of_mem hw
  refine c j w hj ?_
  have := (List.getElem?_eq_some_iff.1 hj).1
  omega

/-- Removing one watch: its entry, its place in the monitor's list and its watch in the kernel are gone; every other entry and
every other watch of the kernel is as before. -/
theorem rm_watch_exact (p wd : Nat) (l : List Nat) (s : St) (hv : valid s wd = true) (hp : p ≠ wd) (hpv : valid s p = true)
    (hl : (s.slot p).wds = some l) (hnd : l.Nodup) :
    ((rmWatch p wd s).slot wd).used = false ∧ ((rmWatch p wd s).slot wd).path = none ∧
    ((rmWatch p wd s).slot p).wds = some (l.filter (· ≠ wd)) ∧
    (rmWatch p wd s).kern (getFd s p) (getFd s wd) = none ∧
    (∀ r w, (r ≠ getFd s p ∨ w ≠ getFd s wd) → (rmWatch p wd s).kern r w = s.kern r w) ∧
    (∀ j, j ≠ p → j ≠ wd → (rmWatch p wd s).slot j = s.slot j) ∧
    ((rmWatch p wd s).slot p).used = true ∧ ((rmWatch p wd s).slot p).path = (s.slot p).path := by
  obtain ⟨h1, h2, h3⟩ := valid_iff.1 hv
  obtain ⟨q1, q2, q3⟩ := valid_iff.1 hpv
  have hv2 : valid (s.set p { s.slot p with wds := (s.slot p).wds.map (·.erase wd) }) wd = true := by
    rw [valid_iff, set_slot, if_neg hp.symm]
    exact ⟨h1, h2, h3⟩
  have he : l.erase wd = l.filter (· ≠ wd) := by
    rw [hnd.erase_eq_filter]
    apply List.filter_congr
    intro x _
    by_cases e : x = wd <;> simp [e]
  simp only [rmWatch, hv, if_true, hv2]
  refine ⟨?_, ?_, ?_, ?_, ?_, ?_, ?_, ?_⟩
  · exact clearFree_used _ _
  · apply clearFree_path
    · exact h1
    · rw [set_slot, if_neg hp.symm]; exact h2
  · rw [clearFree_other _ hp, set_slot, if_pos rfl, hl, ← he]
    rfl
  · simp
  · intro r w h
    simp only [clear_kern, freeFd_kern, set_kern]
    by_cases e : r = getFd s p
    · subst e
      have hw : w ≠ getFd s wd := by simpa using h
      simp [hw]
    · simp [e]
  · intro j hj1 hj2
    rw [clearFree_other _ hj2, set_slot, if_neg hj1]
  · rw [clearFree_other _ hp, set_slot, if_pos rfl]
    exact q2
  · rw [clearFree_other _ hp, set_slot, if_pos rfl]

/-! ## C75 -/

/-- In no table whatever does `inotify_next` give the address of the record that follows in the buffer. -/
theorem next_never_following (s : St) (ev len : Nat) : next s ev len ≠ some (ev + 16 + len) := by
  unfold next
  split
  · intro h; cases h
  · simp only
    split
    · intro h
      injection h with h
      omega
    · intro h; cases h

/-- Reads are made on monitors, not on watch numbers. -/
def ReadsMonitors : St → List Op → Prop
  | _, [] => True
  | s, o :: os => (match o with | .read p _ _ => (s.slot p).sync = false | _ => True) ∧
    match step s o with | .ok s' => ReadsMonitors s' os | .ub => True

/-- No watch entry has a buffer. -/
def NoBuf (s : St) : Prop := ∀ i, (s.slot i).sync = true → (s.slot i).buf = 0

theorem NoBuf.set {s : St} (h : NoBuf s) {i : Nat} {x : Slot} (hx : x.sync = true → x.buf = 0) : NoBuf (s.set i x) := by
  intro j
  rw [set_slot]
  split
  · exact hx
  · exact h j

theorem NoBuf.kern {s : St} (h : NoBuf s) (k : Nat → Nat → Option Bytes) : NoBuf { s with kern := k } := h

theorem NoBuf.freeFd {s : St} (h : NoBuf s) (p : Nat) : NoBuf (freeFd p s) := by
  unfold Watch.freeFd
  split
  · exact h.set (h p)
  · exact h

theorem NoBuf.clear {s : St} (h : NoBuf s) (p : Nat) : NoBuf (clear p s) := h.set (fun e => by cases e)

theorem NoBuf.osClose {s : St} (h : NoBuf s) (p : Nat) : NoBuf (osClose p s) := by
  unfold Watch.osClose
  cases valid s p
  · exact h
  · exact ((h.freeFd p).kern _).clear p

theorem NoBuf.closeLoop {p : Nat} : ∀ (k i : Nat) {s : St}, NoBuf s → NoBuf (closeLoop p k i s)
  | 0, _, _, h => h
  | k + 1, i, s, h => by
    unfold Watch.closeLoop
    split
    · exact h
    · rename_i w _
      have h1 := (h.freeFd w).clear w
      exact NoBuf.closeLoop k (i + 1) (h1.set (h1 p))

theorem NoBuf.newFd {s : St} (h : NoBuf s) (b : Bool) (n : Nat) : NoBuf (newFd b n s).2 := by
  unfold Watch.newFd
  split
  · exact h.set (fun _ => rfl)
  · exact h

theorem NoBuf.step {s s' : St} (h : NoBuf s) {o : Op} (ho : match o with | .read p _ _ => (s.slot p).sync = false | _ => True)
    (e : step s o = .ok s') : NoBuf s' := by
  cases o with
  | init r => cases e; exact h.newFd _ _
  | add p root w path =>
    simp only [Watch.step, addDir] at e
    have h0 := h.kern (Function.update s.kern (getFd s p) (Function.update (s.kern (getFd s p)) w (some path)))
    have h1 := h0.newFd true w
    cases hA : Watch.newFd true w { s with kern := Function.update s.kern (getFd s p) (Function.update (s.kern (getFd s p)) w (some path)) } with
    | mk i t =>
      rw [hA] at e h1
      cases i with
      | none => cases e
      | some i =>
        simp only [Res.ok.injEq] at e
        rw [← e]
        have h2 : NoBuf (addWd p i t) := h1.set (h1 p)
        exact h2.set (h2 i)
  | rm p wd =>
    cases e
    simp only [rmWatch]
    refine NoBuf.kern ?_ _
    cases valid s wd
    · simp only [Bool.false_eq_true, if_false]
      split
      · exact (h.freeFd wd).clear wd
      · exact h
    · have h1 : NoBuf (s.set p { s.slot p with wds := (s.slot p).wds.map (·.erase wd) }) := h.set (h p)
      simp only [if_true]
      split
      · exact (h1.freeFd wd).clear wd
      · exact h1
  | close p =>
    cases e
    unfold closeMon
    split
    · exact (h.closeLoop _ _).osClose p
    · exact h
  | read p buf n =>
    cases e
    unfold osRead
    split
    · exact h.set (fun hs => by rw [show (s.slot p).sync = false from ho] at hs; cases hs)
    · exact h

theorem noBuf_run : ∀ (os : List Op) {s s' : St}, NoBuf s → ReadsMonitors s os → run s os = .ok s' → NoBuf s'
  | [], s, s', h, _, e => by cases e; exact h
  | o :: os, s, s', h, hr, e => by
    rw [run, List.foldlM_cons, Res.bind_eq_ok] at e
    obtain ⟨s1, e1, e2⟩ := e
    obtain ⟨ho, hr⟩ := hr
    rw [e1] at hr
    exact noBuf_run os (h.step ho e1) hr e2

/-- After any history of monitors, watches, removals, closings and reads, `inotify_next` answers that there is no further record,
however many there are in the buffer. -/
theorem next_always_ends (os : List Op) (s : St) (h : run start os = .ok s) (hr : ReadsMonitors start os) (ev len : Nat)
    (hev : ev ≠ 0) : next s ev len = none := by
  have hb : NoBuf s := noBuf_run os (s := start) (fun i h => by cases h) hr h
  unfold next
  have : (List.range s.size).find? (fun i => (s.slot i).used && (s.slot i).sync && decide ((s.slot i).buf = ev)) = none := by
    rw [List.find?_eq_none]
    intro i _
    cases hs : (s.slot i).sync
    · simp
    · simp [hb i hs, Ne.symm hev]
  rw [this]

/-- For a buffer with a single record that answer is right. -/
theorem next_single_partial (os : List Op) (s : St) (h : run start os = .ok s) (hr : ReadsMonitors start os) (r : Rec)
    (ev : Nat) (hev : ev ≠ 0) :
    next s ev (r.name.length + r.pad) =
      if ev + 16 + (r.name.length + r.pad) < ev + r.bytes.length then some (ev + 16 + (r.name.length + r.pad)) else none := by
  rw [next_always_ends os s h hr ev _ hev, if_neg (by rw [r.bytes_length]; omega)]

/-! ## Cases -/

/-- A monitor (descriptor 5) with the root and two directories. -/
def three : Res St := run start [.init 5, .add 5 true 1 [0x64], .add 5 false 2 [0x64, 0x2f, 0x61], .add 5 false 3 [0x64, 0x2f, 0x62]]

example : ∃ s, three = .ok s ∧ valid s 5 = true ∧ (s.slot 5).wds = some [1, 2, 3] ∧ [1, 2, 3].Nodup ∧ 5 ∉ [1, 2, 3] ∧
    (∀ w ∈ [1, 2, 3], (s.slot w).used = true) ∧ valid s 2 = true ∧
    ((closeMon 5 s).slot 2).path = some [0x64, 0x2f, 0x61] :=
  ⟨_, rfl, by decide, by decide, by decide, by decide, by decide, by decide, by decide +kernel⟩

example : ∃ s, run start [.init 5, .add 5 true 1 [0x64]] = .ok s ∧ valid s 5 = true ∧ (s.slot 5).wds = some [1] ∧
    (s.slot 1).used = true := ⟨_, rfl, by decide, by decide, by decide⟩

example : ∃ s, run start [.init 5, .add 5 true 1 [0x64], .read 5 4096 64] = .ok s ∧ (s.slot 5).buf = 4096 ∧
    next s 4096 16 = none := ⟨_, rfl, by decide, by decide +kernel⟩

example : ReadsMonitors start [.init 5, .add 5 true 1 [0x64], .read 5 4096 64] :=
  ⟨trivial, trivial, by decide, trivial⟩

end Verif.Watch
