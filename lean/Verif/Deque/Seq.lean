import Verif.Deque.Lemmas

namespace Verif.Deque

/-- One operation run by thread `i` from beginning to end with nobody else moving (12 steps suffice; an idle thread
does nothing). -/
def runOp (s : St) (i : Tid) (op : Op) : St := exec s (.start i op :: List.replicate 12 (.go i))

/-- The ring is well formed. -/
structure Quiet (s : St) : Prop where
  ub : s.ub = false
  le : s.top ≤ s.bottom
  fit : s.bottom - s.top ≤ (s.heap s.cur).size
  pos : 0 < (s.heap s.cur).size
  live : (s.heap s.cur).live = true
  cur : s.cur < s.next

theorem exec_cons (s : St) (a : Act) (l : List Act) : exec s (a :: l) = exec (step s a) l := rfl

theorem step_go {s : St} {i : Tid} (h : s.ub = false) : step s (.go i) = go s i := by simp [step, h]

theorem step_push {s : St} {i : Tid} {w} (h : s.ub = false) (hi : s.pcs i = .idle) :
    step s (.start i (.push w)) = setPc { s with begun := s.begun ++ [w] } i (.push0 w) := by simp [step, h, hi]
theorem step_steal {s : St} {i : Tid} (h : s.ub = false) (hi : s.pcs i = .idle) :
    step s (.start i .steal) = setPc s i .steal0 := by simp [step, h, hi]
theorem step_take {s : St} {i : Tid} (h : s.ub = false) (hi : s.pcs i = .idle) :
    step s (.start i .take) = setPc s i .take0 := by simp [step, h, hi]

theorem go_idle {s : St} {i : Tid} (h : s.pcs i = .idle) : go s i = s := by simp [go, h]

theorem exec_idle {s : St} {i : Tid} (h : s.pcs i = .idle) (hu : s.ub = false) (k : Nat) :
    exec s (List.replicate k (.go i)) = s := by
  induction k with
  | zero => rfl
  | succ k ih => rw [List.replicate_succ, exec_cons, step_go hu, go_idle h, ih]

theorem replicate12 (k m : Nat) (a : Act) (s : St) :
    exec s (List.replicate (k + m) a) = exec (exec s (List.replicate k a)) (List.replicate m a) := by
  unfold exec
  rw [List.replicate_add, List.foldl_append]

theorem update_idle {f : Tid → Pc} {i : Tid} (h : f i = .idle) : Function.update f i .idle = f := by
  rw [← h]; exact Function.update_eq_self i f

/-- The array after a push into slot `b`. -/
def putSlot (a : Arr) (b : Nat) (w : Task) : Arr := { a with buf := Function.update a.buf (b % a.size) (some w) }

theorem push_run_fits {s : St} (q : Quiet s) {i : Tid} (hi : s.pcs i = .idle) (w : Task) (h : s.bottom - s.top < (s.heap s.cur).size) :
    runOp s i (.push w) = { s with begun := s.begun ++ [w], pushed := s.pushed ++ [w], bottom := s.bottom + 1,
                                   heap := Function.update s.heap s.cur (putSlot (s.heap s.cur) s.bottom w) } := by
  have hpos := q.pos
  unfold runOp
  rw [exec_cons, step_push q.ub hi, show (12 : Nat) = 6 + 6 from rfl, replicate12]
  have e : exec (setPc { s with begun := s.begun ++ [w] } i (.push0 w)) (List.replicate 6 (.go i)) =
      { s with begun := s.begun ++ [w], pushed := s.pushed ++ [w], bottom := s.bottom + 1,
               heap := Function.update s.heap s.cur (putSlot (s.heap s.cur) s.bottom w) } := by
    have hnot : ¬ (s.bottom - s.top > (s.heap s.cur).size - 1) := by omega
    simp only [List.replicate, exec, List.foldl_cons, List.foldl_nil]
    simp [step, go, setPc, q.ub, q.live, hnot, putSlot, update_idle hi]
  rw [e]
  apply exec_idle
  · exact hi
  · exact q.ub

/-- One step of the running thread. -/
theorem exec_pc {s s' : St} {i : Tid} {pc : Pc} {k : Nat} (hu : s.ub = false) (h : go (setPc s i pc) i = s') :
    exec (setPc s i pc) (List.replicate (k + 1) (.go i)) = exec s' (List.replicate k (.go i)) := by
  rw [List.replicate_succ, exec_cons, step_go (by exact hu), h]

theorem setPc_setPc (s : St) (i : Tid) (p q : Pc) : setPc (setPc s i p) i q = setPc s i q := by
  simp [setPc]

theorem setPc_pc (s : St) (i : Tid) (p : Pc) : (setPc s i p).pcs i = p := by simp [setPc]

theorem push_run_full {s : St} (q : Quiet s) {i : Tid} (hi : s.pcs i = .idle) (w : Task) (h : s.bottom - s.top = (s.heap s.cur).size) :
    runOp s i (.push w) = { s with
      begun := s.begun ++ [w], pushed := s.pushed ++ [w], bottom := s.bottom + 1, cur := s.next, next := s.next + 1,
      heap := Function.update (Function.update (Function.update s.heap s.next (grown (s.heap s.cur) s.top s.bottom))
        s.cur { s.heap s.cur with live := false })
        s.next (putSlot (grown (s.heap s.cur) s.top s.bottom) s.bottom w) } := by
  have hpos := q.pos
  have hne : s.next ≠ s.cur := by have := q.cur; omega
  have hfull : s.bottom - s.top > (s.heap s.cur).size - 1 := by omega
  unfold runOp
  rw [exec_cons, step_push q.ub hi]
  obtain ⟨s0, hs0⟩ : ∃ s0, s0 = { s with begun := s.begun ++ [w] } := ⟨_, rfl⟩
  rw [← hs0]
  have hu : s0.ub = false := by rw [hs0]; exact q.ub
  rw [exec_pc hu (s' := setPc s0 i (.push1 w s.bottom)) (by simp only [go, setPc_pc, setPc_setPc]; rw [hs0]; rfl),
    exec_pc hu (s' := setPc s0 i (.push2 w s.bottom s.top)) (by simp only [go, setPc_pc, setPc_setPc]; rw [hs0]; rfl),
    exec_pc hu (s' := setPc s0 i (.push3 w s.bottom s.top s.cur)) (by simp only [go, setPc_pc, setPc_setPc]; rw [hs0]; rfl),
    exec_pc hu (s' := setPc s0 i (.grow0 w s.bottom)) (by
      have h1 : ((setPc s0 i (.push3 w s.bottom s.top s.cur)).heap s.cur) = s.heap s.cur := by rw [hs0]; rfl
      simp only [go, setPc_pc, setPc_setPc, h1, q.live, if_true, if_pos hfull]),
    exec_pc hu (s' := setPc s0 i (.grow1 w s.bottom s.cur)) (by simp only [go, setPc_pc, setPc_setPc]; rw [hs0]; rfl),
    exec_pc hu (s' := setPc s0 i (.grow2 w s.bottom s.cur s.top)) (by simp only [go, setPc_pc, setPc_setPc]; rw [hs0]; rfl)]
  obtain ⟨s1, hs1⟩ : ∃ s1, s1 = { s0 with heap := Function.update s.heap s.next (grown (s.heap s.cur) s.top s.bottom),
                                          next := s.next + 1 } := ⟨_, rfl⟩
  have hu1 : s1.ub = false := by rw [hs1]; exact hu
  rw [exec_pc hu (s' := setPc s1 i (.grow3 w s.bottom s.cur s.next)) (by
      have h1 : ((setPc s0 i (.grow2 w s.bottom s.cur s.top)).heap s.cur) = s.heap s.cur := by rw [hs0]; rfl
      simp only [go, setPc_pc, h1, q.live, if_true]
      rw [hs1, hs0]; simp [setPc])]
  obtain ⟨s2, hs2⟩ : ∃ s2, s2 = { s1 with cur := s.next } := ⟨_, rfl⟩
  have hu2 : s2.ub = false := by rw [hs2]; exact hu1
  rw [exec_pc hu1 (s' := setPc s2 i (.grow4 w s.bottom s.cur)) (by
      simp only [go, setPc_pc]; rw [hs2]; simp [setPc])]
  obtain ⟨s3, hs3⟩ : ∃ s3, s3 = { s2 with heap := Function.update s2.heap s.cur { s2.heap s.cur with live := false } } := ⟨_, rfl⟩
  have hu3 : s3.ub = false := by rw [hs3]; exact hu2
  have hlive2 : s2.heap s.cur = s.heap s.cur := by
    rw [hs2, hs1]; exact Function.update_of_ne hne.symm _ _
  rw [exec_pc hu2 (s' := setPc s3 i (.pushRe w s.bottom)) (by
      simp only [go, setPc_pc]; rw [hs3]; simp [setPc, hlive2, q.live]),
    exec_pc hu3 (s' := setPc s3 i (.push4 w s.bottom s.next)) (by
      simp only [go, setPc_pc, setPc_setPc]; rw [hs3, hs2]; rfl)]
  have hgrown : s3.heap s.next = grown (s.heap s.cur) s.top s.bottom := by
    rw [hs3, hs2, hs1]
    show Function.update _ _ _ s.next = _
    rw [Function.update_of_ne hne]; exact Function.update_self _ _ _
  obtain ⟨a4, ha4⟩ : ∃ a4, a4 = putSlot (grown (s.heap s.cur) s.top s.bottom) s.bottom w := ⟨_, rfl⟩
  rw [← ha4]
  obtain ⟨s4, hs4⟩ : ∃ s4, s4 = { s3 with heap := Function.update s3.heap s.next a4 } := ⟨_, rfl⟩
  have hu4 : s4.ub = false := by rw [hs4]; exact hu3
  rw [exec_pc hu3 (s' := setPc s4 i (.push5 w s.bottom)) (by
      have h1 : ((setPc s3 i (.push4 w s.bottom s.next)).heap s.next) = grown (s.heap s.cur) s.top s.bottom := hgrown
      have hgl : (grown (s.heap s.cur) s.top s.bottom).live = true := rfl
      simp only [go, setPc_pc, h1, hgl, if_true]
      rw [hs4, ha4]; simp [setPc, putSlot]; rfl),
    exec_pc hu4 (s' := setPc { s4 with bottom := s.bottom + 1, pushed := s4.pushed ++ [w] } i .idle) (by
      simp only [go, setPc_pc]; simp [setPc])]
  rw [List.replicate_zero]
  show setPc _ i .idle = _
  rw [hs4, hs3, hs2, hs1, hs0]
  simp only [setPc, update_idle hi]
  rw [Function.update_of_ne hne.symm]

theorem steal_run {s : St} (q : Quiet s) {i : Tid} (hi : s.pcs i = .idle) (h : s.top < s.bottom) :
    runOp s i .steal = { s with top := s.top + 1,
                                rets := s.rets ++ [(i, .got ((s.heap s.cur).buf (s.top % (s.heap s.cur).size)))] } := by
  unfold runOp
  rw [exec_cons, step_steal q.ub hi]
  simp only [List.replicate, exec, List.foldl_cons, List.foldl_nil]
  simp [step, go, setPc, done, q.ub, q.live, h, update_idle hi, hi]

theorem steal_run_empty {s : St} (q : Quiet s) {i : Tid} (hi : s.pcs i = .idle) (h : s.top = s.bottom) :
    runOp s i .steal = { s with rets := s.rets ++ [(i, .empty)] } := by
  unfold runOp
  rw [exec_cons, step_steal q.ub hi]
  simp only [List.replicate, exec, List.foldl_cons, List.foldl_nil]
  simp [step, go, setPc, done, q.ub, h, update_idle hi, hi]

theorem take_run_many {s : St} (q : Quiet s) {i : Tid} (hi : s.pcs i = .idle) (h : s.top + 1 < s.bottom) :
    runOp s i .take = { s with
      bottom := s.bottom - 1,
      rets := s.rets ++ [(i, .got ((s.heap s.cur).buf ((s.bottom - 1) % (s.heap s.cur).size)))] } := by
  have h0 : s.bottom ≠ 0 := by omega
  have h1 : s.top ≤ s.bottom - 1 := by omega
  have h2 : s.top ≠ s.bottom - 1 := by omega
  unfold runOp
  rw [exec_cons, step_take q.ub hi]
  simp only [List.replicate, exec, List.foldl_cons, List.foldl_nil]
  simp [step, go, setPc, done, q.ub, q.live, h0, h1, h2, update_idle hi, hi]

theorem take_run_one {s : St} (q : Quiet s) {i : Tid} (hi : s.pcs i = .idle) (h : s.top + 1 = s.bottom) :
    runOp s i .take = { s with
      top := s.top + 1,
      rets := s.rets ++ [(i, .got ((s.heap s.cur).buf (s.top % (s.heap s.cur).size)))] } := by
  have h0 : s.bottom ≠ 0 := by omega
  have h1 : s.bottom - 1 = s.top := by omega
  unfold runOp
  rw [exec_cons, step_take q.ub hi]
  simp only [List.replicate, exec, List.foldl_cons, List.foldl_nil]
  simp [step, go, setPc, done, q.ub, q.live, h0, h1, update_idle hi, hi]
  exact h

theorem take_run_empty {s : St} (q : Quiet s) {i : Tid} (hi : s.pcs i = .idle) (h : s.top = s.bottom) (h0 : s.bottom ≠ 0) :
    runOp s i .take = { s with rets := s.rets ++ [(i, .empty)] } := by
  have h1 : ¬ s.top ≤ s.bottom - 1 := by omega
  have h2 : s.bottom - 1 + 1 = s.bottom := by omega
  unfold runOp
  rw [exec_cons, step_take q.ub hi]
  simp only [List.replicate, exec, List.foldl_cons, List.foldl_nil]
  simp [step, go, setPc, done, q.ub, q.live, h0, h1, h2, update_idle hi, hi]

/-- `deque_take` on a queue whose `bottom` is 0. -/
theorem take_run_zero {s : St} (q : Quiet s) {i : Tid} (hi : s.pcs i = .idle) (hb : s.bottom = 0) :
    runOp s i .take = { s with
      bottom := 2 ^ 64 - 1,
      rets := s.rets ++ [(i, .got ((s.heap s.cur).buf ((2 ^ 64 - 1) % (s.heap s.cur).size)))] } := by
  have h1 : s.top ≤ 2 ^ 64 - 1 := by have := q.le; omega
  have h2 : s.top ≠ 2 ^ 64 - 1 := by have := q.le; omega
  obtain ⟨N, hN⟩ : ∃ N, N = 2 ^ 64 - 1 := ⟨_, rfl⟩
  unfold runOp
  rw [exec_cons, step_take q.ub hi]
  rw [← hN] at h1 h2 ⊢
  rw [exec_pc q.ub (s' := setPc s i (.take1 N)) (by
      have e : (setPc s i .take0).bottom = 0 := hb
      simp only [go, setPc_pc, setPc_setPc, e, if_true, hN]),
    exec_pc q.ub (s' := setPc s i (.take2 N s.top)) (by simp only [go, setPc_pc, setPc_setPc]; rfl),
    exec_pc q.ub (s' := setPc s i (.take3 N s.top s.cur)) (by simp only [go, setPc_pc, setPc_setPc]; rfl),
    exec_pc q.ub (s' := setPc { s with bottom := N } i (.take4 N s.top s.cur)) (by
      simp only [go, setPc_pc]; simp [setPc])]
  obtain ⟨s1, hs1⟩ : ∃ s1, s1 = { s with bottom := N } := ⟨_, rfl⟩
  have hu1 : s1.ub = false := by rw [hs1]; exact q.ub
  have hp1 : s1.pcs = s.pcs := by rw [hs1]
  have hh1 : s1.heap = s.heap := by rw [hs1]
  rw [← hs1, exec_pc hu1 (s' := done s1 i (.got ((s.heap s.cur).buf (N % (s.heap s.cur).size)))) (by
      have e : (setPc s1 i (.take4 N s.top s.cur)).heap = s.heap := hh1
      simp only [go, setPc_pc, e, h1, if_true, q.live, h2, if_false]
      simp [done, setPc])]
  have hd : (done s1 i (.got ((s.heap s.cur).buf (N % (s.heap s.cur).size)))).pcs i = .idle := by simp [done, setPc]
  rw [exec_idle hd (by exact hu1)]
  simp only [done, setPc, hp1, update_idle hi]
  rw [hs1]

/-! ### contents -/

theorem contents_eq (s : St) : contents s = (List.range' s.top (s.bottom - s.top)).map (slot s s.cur) := rfl

theorem contents_push {s : St} (q : Quiet s) {i : Tid} (hi : s.pcs i = .idle) (w : Task) :
    contents (runOp s i (.push w)) = contents s ++ [some w] ∧ Quiet (runOp s i (.push w)) := by
  have hle := q.le
  have hfit := q.fit
  have hpos := q.pos
  have hcur := q.cur
  have hr : List.range' s.top (s.bottom + 1 - s.top) = List.range' s.top (s.bottom - s.top) ++ [s.bottom] := by
    rw [show s.bottom + 1 - s.top = (s.bottom - s.top) + 1 by omega, List.range'_concat]
    simp; omega
  rcases Nat.lt_or_ge (s.bottom - s.top) (s.heap s.cur).size with h | h
  · rw [push_run_fits q hi w h]
    refine ⟨?_, ⟨q.ub, by show s.top ≤ s.bottom + 1; omega, ?_, ?_, ?_, q.cur⟩⟩
    · unfold contents
      simp only [hr, List.map_append, List.map_cons, List.map_nil, Function.update_self, putSlot]
      congr 1
      apply List.map_congr_left
      intro k hk
      rw [List.mem_range'_1] at hk
      rw [Function.update_of_ne (mod_ne_of_lt (by omega) (by omega))]
    · simp only [Function.update_self, putSlot]; omega
    · simp only [Function.update_self, putSlot]; omega
    · simp only [Function.update_self, putSlot]; exact q.live
  · rw [push_run_full q hi w (by omega)]
    refine ⟨?_, ⟨q.ub, by show s.top ≤ s.bottom + 1; omega, ?_, ?_, ?_, Nat.lt_succ_self _⟩⟩
    · have hgs : (grown (s.heap s.cur) s.top s.bottom).size = (s.heap s.cur).size * 2 := rfl
      unfold contents
      simp only [hr, List.map_append, List.map_cons, List.map_nil, Function.update_self, putSlot]
      congr 1
      apply List.map_congr_left
      intro k hk
      rw [List.mem_range'_1] at hk
      rw [hgs, Function.update_of_ne (mod_ne_of_lt (by omega) (by omega)),
        grown_slot _ _ _ _ hpos (by omega) (by omega) (by omega)]
    · simp only [Function.update_self, putSlot, grown]; omega
    · simp only [Function.update_self, putSlot, grown]; omega
    · simp only [Function.update_self, putSlot, grown]

end Verif.Deque
