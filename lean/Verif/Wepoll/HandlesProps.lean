import Verif.Wepoll.Handles

/-! # C153: closing an epoll handle which other threads are using -/

namespace Verif.Wepoll.Handles

/-- The states reached by schedules of `n` threads. -/
def Reach (n : Nat) (s : St) : Prop := ∃ as, run (init n) as = .ok s

theorem reach_inv {n : Nat} (hn : n < 0x10000000) {s : St} (h : Reach n s) : Inv s := by
  obtain ⟨as, h⟩ := h
  rcases run_fine (init_inv hn) as with ⟨s', h1, h2⟩ | ⟨h1, -⟩
  · rw [h] at h1; injection h1 with h1; subst h1; exact h2
  · rw [h] at h1; injection h1

/-- A thread with a pointer to the port `p`. -/
def Holds (c : Pc) (p : Nat) : Prop :=
  c = .user p ∨ c = .signal p ∨ c = .closing p ∨ c = .closed p ∨ c = .await p ∨ c = .poison p ∨
    c = .delete p

/-- A thread which is closing the port `p`. -/
def Closes (c : Pc) (p : Nat) : Prop :=
  c = .closing p ∨ c = .closed p ∨ c = .await p ∨ c = .poison p ∨ c = .delete p

/-- Whatever the threads do, and in whatever order: no thread touches a port
which was freed, no assertion on the counters fails, and a new handle is never
found in the tree already. -/
theorem close_is_safe_partial {n : Nat} (hn : n < 0x10000000) (as : List Act) :
    run (init n) as ≠ .fault .freed ∧ run (init n) as ≠ .fault .lock ∧
      run (init n) as ≠ .fault .dup := by
  rcases run_fine (init_inv hn) as with ⟨s', h1, -⟩ | ⟨h1, -⟩ <;> rw [h1] <;> simp

/-- A port is freed only when no thread has a pointer to it and no handle
leads to it. -/
theorem freed_is_unreachable {n : Nat} (hn : n < 0x10000000) {s : St} (h : Reach n s) {p : Nat}
    (hf : s.live p = false) :
    (∀ h, s.tree h ≠ some p) ∧ ∀ c, c ∈ s.ts → ¬ Holds c p := by
  have hi := reach_inv hn h
  have hp := hi.phase p
  unfold Phase at hp
  rw [hf] at hp
  simp only [Bool.false_eq_true, false_and, or_false, true_and] at hp
  obtain ⟨h1, -, c1, c2, c3, c4, c5, c6, c7⟩ := hp
  refine ⟨fun h' e => ?_, fun c hc hh => ?_⟩
  · have := (inTree_iff hi).mpr ⟨h', e⟩
    rw [h1] at this; simp at this
  · rw [List.count_eq_zero] at c1 c2 c3 c4 c5 c6 c7
    rcases hh with rfl | rfl | rfl | rfl | rfl | rfl | rfl <;> contradiction

/-- Once a thread has begun to close a port, no handle leads to it any more:
no thread can begin to use it, or to close it a second time. -/
theorem closing_is_unreachable {n : Nat} (hn : n < 0x10000000) {s : St} (h : Reach n s)
    {p : Nat} {c : Pc} (hc : c ∈ s.ts) (hp : Closes c p) : ∀ h, s.tree h ≠ some p := by
  have hi := reach_inv hn h
  intro h' e
  have hb := hi.phase p
  unfold Phase at hb
  rw [(inTree_iff hi).mpr ⟨h', e⟩] at hb
  simp only [Bool.true_eq_false, false_and, and_false, or_false, false_or, true_and] at hb
  have : 0 < s.ts.count c := List.count_pos_iff.mpr hc
  rcases hp with rfl | rfl | rfl | rfl | rfl <;> omega

theorem count_two {ts : List Pc} {i j : Nat} {c : Pc} (hi : ts[i]? = some c)
    (hj : ts[j]? = some c) (hij : i ≠ j) : 2 ≤ ts.count c := by
  have h1 := count_set (if c = .idle then .user 0 else .idle) c hi
  have hj' : (ts.set i (if c = .idle then Pc.user 0 else .idle))[j]? = some c := by
    rw [List.getElem?_set_ne hij]; exact hj
  have h2 := count_pos hj'
  have h3 : (if c = .idle then Pc.user 0 else .idle) ≠ c := by
    by_cases e : c = .idle
    · subst e; simp
    · rw [if_neg e]; exact Ne.symm e
  rw [if_pos rfl, if_neg h3] at h1
  omega

/-- Only one thread closes a port, however many call `epoll_close`. -/
theorem one_closer {n : Nat} (hn : n < 0x10000000) {s : St} (h : Reach n s) {p i j : Nat}
    {c d : Pc} (hci : s.ts[i]? = some c) (hdj : s.ts[j]? = some d) (hc : Closes c p)
    (hd : Closes d p) : i = j := by
  by_cases hij : i = j
  · exact hij
  · exfalso
    have hb := (reach_inv hn h).phase p
    unfold Phase at hb
    have h1 := count_pos hci
    have h2 := count_pos hdj
    by_cases e : c = d
    · subst e
      have h3 := count_two hci hdj hij
      rcases hc with rfl | rfl | rfl | rfl | rfl <;> omega
    · rcases hc with rfl | rfl | rfl | rfl | rfl <;>
        rcases hd with rfl | rfl | rfl | rfl | rfl <;>
        first
        | exact absurd rfl e
        | omega

/-- A thread that has to wake the closing thread finds it asleep, at a port
which is still there. -/
theorem signal_has_sleeper {n : Nat} (hn : n < 0x10000000) {s : St} (h : Reach n s) {p i : Nat}
    (hi : s.ts[i]? = some (.signal p)) :
    s.live p = true ∧ ∃ j : Nat, s.ts[j]? = some (.await p) := by
  have hb := (reach_inv hn h).phase p
  unfold Phase at hb
  have h1 := count_pos hi
  have h2 : 0 < s.ts.count (.await p) := by omega
  refine ⟨?_, List.mem_iff_getElem?.mp (List.count_pos_iff.mp h2)⟩
  rcases hb with hb | hb | hb | hb | hb | hb | hb
  · omega
  all_goals exact hb.1

/-- A closing thread never sleeps for nobody: while it sleeps, a thread is
using the port or is about to wake it. -/
theorem sleeper_will_wake {n : Nat} (hn : n < 0x10000000) {s : St} (h : Reach n s) {p j : Nat}
    (hj : s.ts[j]? = some (.await p)) :
    ∃ i : Nat, s.ts[i]? = some (.user p) ∨ s.ts[i]? = some (.signal p) := by
  have hb := (reach_inv hn h).phase p
  unfold Phase at hb
  have h1 := count_pos hj
  have h2 : 0 < s.ts.count (.user p) ∨ 0 < s.ts.count (.signal p) := by omega
  rcases h2 with h2 | h2
  · obtain ⟨i, hi⟩ := List.mem_iff_getElem?.mp (List.count_pos_iff.mp h2)
    exact ⟨i, .inl hi⟩
  · obtain ⟨i, hi⟩ := List.mem_iff_getElem?.mp (List.count_pos_iff.mp h2)
    exact ⟨i, .inr hi⟩

/-- The steps of threads that finish what they began with the port: users give
back their reference, the closing thread goes on. -/
def Finishing : Act → Prop
  | .leave _ | .meet _ _ | .closeIocp _ | .destroy _ | .poison _ | .delete _ => True
  | _ => False

/-- As `step`, along a list. -/
theorem run_cons {s s' : St} {a : Act} {as : List Act} (e : step s a = .ok s') :
    run s (a :: as) = run s' as := by simp [run, e]

theorem get_set {ts : List Pc} {i : Nat} {o : Pc} (n : Pc) (h : ts[i]? = some o) :
    (ts.set i n)[i]? = some n := by
  have := (List.getElem?_eq_some_iff.mp h).1
  simp [this]

theorem live_of {s : St} (hi : Inv s) {i p : Nat} {c : Pc} (hc : s.ts[i]? = some c)
    (hh : Holds c p) : s.live p = true := by
  have hb := hi.phase p
  unfold Phase at hb
  have h1 := count_pos hc
  rcases hb with hb | hb | hb | hb | hb | hb | hb
  · rcases hh with rfl | rfl | rfl | rfl | rfl | rfl | rfl <;> omega
  all_goals exact hb.1

theorem fin_delete {s : St} (hi : Inv s) {j p : Nat} (hj : s.ts[j]? = some (.delete p)) :
    ∃ as s', (∀ a ∈ as, Finishing a) ∧ run s as = .ok s' ∧ s'.live p = false := by
  have hl := live_of hi hj (p := p) (by simp [Holds])
  have hs : step s (.delete j) =
      .ok { s with live := upd s.live p false, ts := s.ts.set j .idle } := by
    simp only [step, hj, if_pos hl]
  exact ⟨[.delete j], _, by simp [Finishing], run_cons hs, upd_same _ _ _⟩

theorem fin_poison {s : St} (hi : Inv s) {j p : Nat} (hj : s.ts[j]? = some (.poison p)) :
    ∃ as s', (∀ a ∈ as, Finishing a) ∧ run s as = .ok s' ∧ s'.live p = false := by
  have hl := live_of hi hj (p := p) (by simp [Holds])
  have hb := hi.phase p
  unfold Phase at hb
  have h1 := count_pos hj
  have hk : s.lock p = DESTROY := by show s.lock p = 0x10000000; omega
  have hs : step s (.poison j) =
      .ok { s with lock := upd s.lock p POISON, ts := s.ts.set j (.delete p) } := by
    simp only [step, hj, if_pos hl, if_pos hk]
  have hi' : Inv { s with lock := upd s.lock p POISON, ts := s.ts.set j (.delete p) } := by
    have := step_fine hi (.poison j); rw [hs] at this; exact this
  obtain ⟨as, s', h2, h3, h4⟩ := fin_delete hi' (j := j) (p := p) (get_set _ hj)
  exact ⟨.poison j :: as, s', by simpa [Finishing] using h2, by rw [run_cons hs]; exact h3, h4⟩

theorem fin_await {s : St} (hi : Inv s) {j p k : Nat} (hj : s.ts[j]? = some (.await p))
    (hk : s.ts.count (.user p) = k) :
    ∃ as s', (∀ a ∈ as, Finishing a) ∧ run s as = .ok s' ∧ s'.live p = false := by
  have wake : ∀ {s : St}, Inv s → s.ts[j]? = some (.await p) → s.ts.count (.user p) = 0 →
      ∃ as s', (∀ a ∈ as, Finishing a) ∧ run s as = .ok s' ∧ s'.live p = false := by
    intro s hi hj h0
    have hb := hi.phase p
    unfold Phase at hb
    have h1 := count_pos hj
    have h2 : 0 < s.ts.count (.signal p) := by omega
    obtain ⟨i, hs⟩ := List.mem_iff_getElem?.mp (List.count_pos_iff.mp h2)
    have hij : i ≠ j := by rintro rfl; rw [hs] at hj; simp at hj
    have hst : step s (.meet i j) =
        .ok { s with ts := (s.ts.set i .idle).set j (.poison p) } := by
      simp only [step, hs, hj, if_true]
    have hi' := step_fine hi (.meet i j)
    rw [hst] at hi'
    have hj' : (s.ts.set i .idle)[j]? = some (.await p) := by
      rw [List.getElem?_set_ne hij]; exact hj
    obtain ⟨as, s', h3, h4, h5⟩ := fin_poison hi' (j := j) (p := p) (get_set _ hj')
    exact ⟨.meet i j :: as, s', by simpa [Finishing] using h3, by rw [run_cons hst]; exact h4, h5⟩
  induction k generalizing s with
  | zero => exact wake hi hj hk
  | succ k ih =>
    have h2 : 0 < s.ts.count (.user p) := by omega
    obtain ⟨i, hs⟩ := List.mem_iff_getElem?.mp (List.count_pos_iff.mp h2)
    have hij : i ≠ j := by rintro rfl; rw [hs] at hj; simp at hj
    have hl := live_of hi hs (p := p) (by simp [Holds])
    have hfine := step_fine hi (.leave i)
    cases hst : step s (.leave i) with
    | fault f =>
      rw [hst] at hfine
      obtain ⟨-, i', h⟩ := hfine
      cases h
    | ok s1 =>
      rw [hst] at hfine
      have hform : ∃ w c, c ≠ .user p ∧ s1 = { s with lock := upd s.lock p w, ts := s.ts.set i c } := by
        simp only [step, hs, if_pos hl] at hst
        split at hst
        · rename_i w wake _
          injection hst with hst
          refine ⟨w, if wake then .signal p else .idle, ?_, hst.symm⟩
          cases wake <;> simp
        · cases hst
      obtain ⟨w, c, hc, rfl⟩ := hform
      have hcount : (s.ts.set i c).count (.user p) = k := by
        have := count_set c (.user p) hs
        rw [if_pos rfl, if_neg hc] at this
        omega
      have hj' : (s.ts.set i c)[j]? = some (.await p) := by
        rw [List.getElem?_set_ne hij]; exact hj
      obtain ⟨as, s', h3, h4, h5⟩ := ih hfine hj' hcount
      exact ⟨.leave i :: as, s', by simpa [Finishing] using h3, by rw [run_cons hst]; exact h4, h5⟩

theorem fin_closed {s : St} (hi : Inv s) {j p : Nat} (hj : s.ts[j]? = some (.closed p)) :
    ∃ as s', (∀ a ∈ as, Finishing a) ∧ run s as = .ok s' ∧ s'.live p = false := by
  have hl := live_of hi hj (p := p) (by simp [Holds])
  have hfine := step_fine hi (.destroy j)
  cases hst : step s (.destroy j) with
  | fault f =>
    rw [hst] at hfine
    obtain ⟨-, i', h⟩ := hfine
    cases h
  | ok s1 =>
    rw [hst] at hfine
    have hform : ∃ w c, (c = .await p ∨ c = .poison p) ∧
        s1 = { s with lock := upd s.lock p w, ts := s.ts.set j c } := by
      simp only [step, hj, if_pos hl] at hst
      split at hst
      · rename_i w sleep _
        injection hst with hst
        refine ⟨w, if sleep then .await p else .poison p, ?_, hst.symm⟩
        cases sleep <;> simp
      · cases hst
    obtain ⟨w, c, hc, rfl⟩ := hform
    have hj' := get_set c hj
    rcases hc with rfl | rfl
    · obtain ⟨as, s', h3, h4, h5⟩ := fin_await hfine (p := p) hj' rfl
      exact ⟨.destroy j :: as, s', by simpa [Finishing] using h3,
        by rw [run_cons hst]; exact h4, h5⟩
    · obtain ⟨as, s', h3, h4, h5⟩ := fin_poison hfine (p := p) hj'
      exact ⟨.destroy j :: as, s', by simpa [Finishing] using h3,
        by rw [run_cons hst]; exact h4, h5⟩

/-- `epoll_close` never hangs for good: from every state in which a thread is
closing a port, the threads inside the library, by only finishing their calls,
bring it to be freed. -/
theorem close_can_finish {n : Nat} (hn : n < 0x10000000) {s : St} (h : Reach n s) {p j : Nat}
    {c : Pc} (hj : s.ts[j]? = some c) (hc : Closes c p) :
    ∃ as s', (∀ a ∈ as, Finishing a) ∧ run s as = .ok s' ∧ s'.live p = false := by
  have hi := reach_inv hn h
  rcases hc with rfl | rfl | rfl | rfl | rfl
  · have hl := live_of hi hj (p := p) (by simp [Holds])
    have hst : step s (.closeIocp j) =
        .ok { s with opened := upd s.opened p false, ts := s.ts.set j (.closed p) } := by
      simp only [step, hj, if_pos hl]
    have hfine := step_fine hi (.closeIocp j)
    rw [hst] at hfine
    obtain ⟨as, s', h3, h4, h5⟩ := fin_closed hfine (p := p) (get_set _ hj)
    exact ⟨.closeIocp j :: as, s', by simpa [Finishing] using h3,
      by rw [run_cons hst]; exact h4, h5⟩
  · exact fin_closed hi hj
  · exact fin_await hi hj rfl
  · exact fin_poison hi hj
  · exact fin_delete hi hj

/-- What is missing for `close_is_safe_partial`: `epoll_ctl` which found the
handle before another thread closed it, and which then adds a socket for which
a new driver handle is needed, runs into an assertion. -/
theorem add_while_closing_asserts {n : Nat} (hn : n < 0x10000000) {s : St} (h : Reach n s)
    {p i : Nat} (hu : s.ts[i]? = some (.user p)) :
    step s (.add i) = .fault .iocp ↔
      ∃ c ∈ s.ts, c = .closed p ∨ c = .await p := by
  have hi := reach_inv hn h
  have hl := user_live hi hu
  have hb := hi.phase p
  unfold Phase at hb
  have h1 := count_pos hu
  have e : step s (.add i) = .fault .iocp ↔ s.opened p = false := by
    simp only [step, hu, if_pos hl]
    cases s.opened p <;> simp
  rw [e]
  constructor
  · intro ho
    have : 0 < s.ts.count (.closed p) ∨ 0 < s.ts.count (.await p) := by
      rcases hb with hb | hb | hb | hb | hb | hb | hb
      · omega
      · rw [hb.2.2.1] at ho; simp at ho
      · rw [hb.2.2.1] at ho; simp at ho
      all_goals omega
    rcases this with h2 | h2
    · exact ⟨_, List.count_pos_iff.mp h2, .inl rfl⟩
    · exact ⟨_, List.count_pos_iff.mp h2, .inr rfl⟩
  · rintro ⟨c, hc, hcc⟩
    have h2 : 0 < s.ts.count c := List.count_pos_iff.mpr hc
    rcases hb with hb | hb | hb | hb | hb | hb | hb
    · omega
    · rcases hcc with rfl | rfl <;> omega
    · rcases hcc with rfl | rfl <;> omega
    all_goals exact hb.2.2.1

/-! ## Cases -/

/-- Two threads wait on handle 7 while a third closes it: the port is freed by
the third once both have left, and not before. -/
example : (match run (init 3) [.create 7, .enter 0 7, .enter 1 7, .close 2 7, .closeIocp 2,
    .destroy 2, .leave 0] with | .ok s => (s.ts, s.live 0) | _ => ([], false)) =
    ([.idle, .user 0, .await 0], true) := by decide

example : (match run (init 3) [.create 7, .enter 0 7, .enter 1 7, .close 2 7, .closeIocp 2,
    .destroy 2, .leave 0, .leave 1, .meet 1 2, .poison 2, .delete 2] with
    | .ok s => (s.ts, s.live 0) | _ => ([], true)) =
    ([.idle, .idle, .idle], false) := by decide

/-- The value of the handle may be given out again as soon as it was closed,
while the old port is still in use. -/
example : (match run (init 3) [.create 7, .enter 0 7, .close 2 7, .closeIocp 2,
    .create 7, .enter 1 7] with | .ok s => s.ts | _ => []) =
    [.user 0, .user 1, .closed 0] := by decide

/-- The assertion fails. -/
example : (match run (init 2) [.create 7, .enter 0 7, .close 1 7, .closeIocp 1, .add 0] with
    | .ok _ => none | .fault f => some f) = some .iocp := by decide

end Verif.Wepoll.Handles
