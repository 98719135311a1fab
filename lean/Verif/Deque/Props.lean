import Verif.Deque.Begun
import Verif.Deque.Seq

/-!
# C24, C25, C26: the work-stealing queue
-/

namespace Verif.Deque

/-! ## C24: one producer, any number of thieves, all interleavings -/

/-- C24, the part that holds: in every interleaving of one producer `o` and any number of thieves that has not read a
freed array, the tasks handed out so far are, in order, the first `k` tasks pushed (so: no task twice, none invented,
oldest first), the queue holds exactly the other pushed tasks, and every push begun has been completed except
possibly one still in progress.

Missing: executions in which a thief reads the old array after a growth freed it (`steal_after_growth_ub`). -/
theorem steal_exactly_once_partial (o : Tid) (n : Nat) (hn : 0 < n) (acts : List Act) (hacts : OneProducer o acts)
    (hub : (exec (init n) acts).ub = false) :
    ∃ k, delivered (exec (init n) acts).rets = ((exec (init n) acts).pushed.take k).map some ∧
      contents (exec (init n) acts) = ((exec (init n) acts).pushed.drop k).map some ∧
      (exec (init n) acts).pushed <+: (exec (init n) acts).begun ∧
      ((exec (init n) acts).pcs o = .idle → (exec (init n) acts).pushed = (exec (init n) acts).begun) := by
  have h := inv_exec acts hacts (.inr (inv_init o hn))
  have hb := begun_exec acts hacts (.inr (inv_init o hn)) (.inr rfl)
  rw [hub] at h hb
  simp only [Bool.false_eq_true, false_or] at h hb
  refine ⟨(exec (init n) acts).top, h.g.out, ?_, ⟨_, hb.symm⟩, ?_⟩
  · rw [contents_eq]
    apply List.ext_getElem?
    intro k
    have hlen := h.g.len
    have hle := h.g.le
    rw [List.getElem?_map, List.getElem?_map, List.getElem?_drop]
    rcases Nat.lt_or_ge k ((exec (init n) acts).bottom - (exec (init n) acts).top) with hk | hk
    · rw [List.getElem?_range' (by omega), Nat.one_mul]
      have := h.g.ring ((exec (init n) acts).top + k) (by omega) (by omega)
      simp only [Option.map_some, this]
      rw [List.getElem?_eq_getElem (by omega)]
      rfl
    · rw [List.getElem?_eq_none (by simp; omega), List.getElem?_eq_none (by omega)]
      rfl
  · intro hi
    rw [hi] at hb
    simpa [pending] using hb.symm

/-- A producer interleaved with two thieves, one of which loses the race for the first task. -/
example : (exec (init 2)
    ([.start 0 (.push 7)] ++ List.replicate 6 (.go 0) ++ [.start 1 .steal, .start 2 .steal, .go 1, .go 2, .go 1, .go 2,
      .start 0 (.push 8), .go 1, .go 2, .go 1, .go 0, .go 2, .go 1, .go 2] ++ List.replicate 6 (.go 0))).rets =
    [(1, .got (some 7)), (2, .abort)] := by decide

/-- C24, no undefined behaviour without growth: if no more pushes are begun than the initial ring holds, no
interleaving touches freed memory. -/
theorem steal_safe_without_growth (o : Tid) (n : Nat) (hn : 0 < n) (acts : List Act) (hacts : OneProducer o acts)
    (hfew : pushStarts acts ≤ n) : (exec (init n) acts).ub = false := by
  -- invariant: array 0 is current and live, nobody grows, every loaded array is array 0
  let Safe : St → Prop := fun s => s.ub = false ∧ s.cur = 0 ∧ (s.heap 0).live = true ∧ (s.heap 0).size = n ∧
    (∀ i, match s.pcs i with
      | .grow0 .. | .grow1 .. | .grow2 .. | .grow3 .. | .grow4 .. | .pushRe .. => False
      | .push3 _ _ _ a => a = 0
      | .push4 _ _ a => a = 0
      | .steal3 _ a => a = 0
      | _ => True)
  have key : ∀ (acts : List Act) (s : St), OneProducer o acts → Inv o s → s.begun = s.pushed ++ pending (s.pcs o) →
      Safe s → s.begun.length + pushStarts acts ≤ n → (exec s acts).ub = false := by
    intro acts
    induction acts with
    | nil => intro s _ _ _ hs _; exact hs.1
    | cons a l ih =>
      intro s ho hi hb hs hc
      have hl : OneProducer o l := fun i w => ⟨fun hm => (ho i w).1 (by simp [hm]), fun hm => (ho i w).2 (by simp [hm])⟩
      have ha : ∀ i w, (a = .start i (.push w) → i = o) ∧ a ≠ .start i .take := fun i w =>
        ⟨fun he => (ho i w).1 (by simp [he]), fun he => (ho i w).2 (by simp [he])⟩
      have hsafe : Safe (step s a) ∧ (step s a).begun.length + pushStarts l ≤ n := by
        obtain ⟨hu, hc0, hlive, hsz, hpcs⟩ := hs
        have upd : ∀ (s' : St) (i : Tid) (p : Pc), s'.pcs = s.pcs → s'.ub = false → s'.cur = 0 →
            (s'.heap 0).live = true → (s'.heap 0).size = n →
            (match p with
              | .grow0 .. | .grow1 .. | .grow2 .. | .grow3 .. | .grow4 .. | .pushRe .. => False
              | .push3 _ _ _ a => a = 0
              | .push4 _ _ a => a = 0
              | .steal3 _ a => a = 0
              | _ => True) → Safe (setPc s' i p) := by
          intro s' i p e1 e2 e3 e4 e5 hp
          refine ⟨e2, e3, e4, e5, fun j => ?_⟩
          by_cases e : j = i
          · subst e; simp only [setPc, Function.update_self]; exact hp
          · simp only [setPc, Function.update_of_ne e, e1]; exact hpcs j
        have updd : ∀ (s' : St) (i : Tid) (r : Ret), s'.pcs = s.pcs → s'.ub = false → s'.cur = 0 →
            (s'.heap 0).live = true → (s'.heap 0).size = n → Safe (done s' i r) := by
          intro s' i r e1 e2 e3 e4 e5
          refine ⟨e2, e3, e4, e5, fun j => ?_⟩
          by_cases e : j = i
          · subst e; simp only [done, Function.update_self]
          · simp only [done, Function.update_of_ne e, e1]; exact hpcs j
        cases a with
        | start i op =>
          cases op with
          | push w =>
            have hc' : s.begun.length + (pushStarts l + 1) ≤ n := by
              simpa [pushStarts, Nat.add_comm, Nat.add_left_comm] using hc
            by_cases hid : s.pcs i = .idle
            · rw [step_push hu hid]
              exact ⟨upd { s with begun := s.begun ++ [w] } i _ rfl hu hc0 hlive hsz trivial,
                by simp [setPc]; omega⟩
            · have : step s (.start i (.push w)) = s := by simp [step, hid]
              rw [this]
              exact ⟨⟨hu, hc0, hlive, hsz, hpcs⟩, by omega⟩
          | steal =>
            have hc' : s.begun.length + pushStarts l ≤ n := by simpa [pushStarts] using hc
            by_cases hid : s.pcs i = .idle
            · rw [step_steal hu hid]
              exact ⟨upd s i _ rfl hu hc0 hlive hsz trivial, hc'⟩
            · have : step s (.start i .steal) = s := by simp [step, hid]
              rw [this]
              exact ⟨⟨hu, hc0, hlive, hsz, hpcs⟩, hc'⟩
          | take => exact absurd rfl (ha i 0).2
        | go i =>
          have hc' : s.begun.length + pushStarts l ≤ n := by simpa [pushStarts] using hc
          rw [step_go hu]
          have hpc := hi.pc i
          have hpi := hpcs i
          have hbeg : (go s i).begun = s.begun := by
            unfold go
            cases s.pcs i <;> simp only [setPc, done, fail] <;> (repeat' split) <;> rfl
          refine ⟨?_, by rw [hbeg]; exact hc'⟩
          unfold go
          cases hq : s.pcs i <;> rw [hq] at hpc hpi <;> simp only [PcOk] at hpc <;> simp only at hpi ⊢
          case idle => exact ⟨hu, hc0, hlive, hsz, hpcs⟩
          case push0 w => exact upd s i _ rfl hu hc0 hlive hsz trivial
          case push1 w b => exact upd s i _ rfl hu hc0 hlive hsz trivial
          case push2 w b t => exact upd s i _ rfl hu hc0 hlive hsz hc0
          case push3 w b t a =>
            subst hpi
            rw [if_pos hlive]
            have howner : i = o := by
              by_contra hne
              have := hi.thief i hne
              rw [hq] at this
              simp [Thief] at this
            subst howner
            have hlen := hi.g.len
            rw [hq] at hb
            have hbl := congrArg List.length hb
            simp [pending] at hbl
            rw [if_neg (by omega)]
            exact upd s i _ rfl hu hc0 hlive hsz rfl
          case push4 w b a =>
            subst hpi
            rw [if_pos hlive]
            exact upd { s with heap := Function.update s.heap 0 (putSlot (s.heap 0) b w) } i _ rfl hu hc0
              (by simp [putSlot, hlive]) (by simp [putSlot, hsz]) trivial
          case push5 w b => exact upd { s with bottom := b + 1, pushed := s.pushed ++ [w] } i _ rfl hu hc0 hlive hsz trivial
          case steal0 => exact upd s i _ rfl hu hc0 hlive hsz trivial
          case steal1 t =>
            split
            · exact upd s i _ rfl hu hc0 hlive hsz trivial
            · exact updd s i _ rfl hu hc0 hlive hsz
          case steal2 t => exact upd s i _ rfl hu hc0 hlive hsz hc0
          case steal3 t a =>
            subst hpi
            rw [if_pos hlive]
            exact upd s i _ rfl hu hc0 hlive hsz trivial
          case steal4 t x =>
            split
            · exact updd { s with top := t + 1 } i _ rfl hu hc0 hlive hsz
            · exact updd s i _ rfl hu hc0 hlive hsz
      rw [exec_cons]
      have hi' := inv_step a hi ha
      rw [hsafe.1.1] at hi'
      simp only [Bool.false_eq_true, false_or] at hi'
      exact ih _ hl hi' (begun_step a hi hb fun i w => (ha i w).1) hsafe.1 hsafe.2
  exact key acts (init n) hacts (inv_init o hn) rfl ⟨rfl, rfl, rfl, rfl, fun _ => trivial⟩ (by simpa [init] using hfew)

example : pushStarts [.start 0 (.push 1), .go 0, .start 1 .steal, .start 0 (.push 2)] ≤ 2 := by decide

theorem fill (n : Nat) : ∀ k, k ≤ n → ∃ acts s, exec (init n) acts = s ∧ OneProducer 0 acts ∧ Quiet s ∧
    (∀ i, s.pcs i = .idle) ∧ s.top = 0 ∧ s.bottom = k ∧ s.cur = 0 ∧ s.next = 1 ∧ (s.heap 0).size = n ∨ n = 0 := by
  intro k
  induction k with
  | zero =>
    intro _
    rcases Nat.eq_zero_or_pos n with h | h
    · exact ⟨[], init n, .inr h⟩
    · exact ⟨[], init n, .inl ⟨rfl, fun i w => by simp, ⟨rfl, Nat.le_refl _, Nat.zero_le _, h, rfl, Nat.zero_lt_one⟩,
        fun _ => rfl, rfl, rfl, rfl, rfl, rfl⟩⟩
  | succ k ih =>
    intro hk
    rcases Nat.eq_zero_or_pos n with h | h
    · exact ⟨[], init n, .inr h⟩
    obtain ⟨acts, s, hs⟩ := ih (by omega)
    rcases hs with ⟨e, ho, q, hi, ht, hb, hc, hnx, hsz⟩ | h0
    · have hfit : s.bottom - s.top < (s.heap s.cur).size := by rw [hc, hsz]; omega
      refine ⟨acts ++ .start 0 (.push k) :: List.replicate 12 (.go 0), runOp s 0 (.push k), .inl ⟨?_, ?_,
        (contents_push q (hi 0) k).2, ?_, ?_, ?_, ?_, ?_, ?_⟩⟩
      · unfold exec at e ⊢
        rw [List.foldl_append, e]
        rfl
      · intro i w
        constructor
        · intro hm
          rcases List.mem_append.1 hm with h1 | h1
          · exact (ho i w).1 h1
          · simp at h1
            exact h1.1
        · intro hm
          rcases List.mem_append.1 hm with h1 | h1
          · exact (ho i w).2 h1
          · simp at h1
      all_goals rw [push_run_fits q (hi 0) k hfit]
      · exact hi
      · exact ht
      · show s.bottom + 1 = k + 1; omega
      · exact hc
      · exact hnx
      · rw [hc]; simp [putSlot, hsz]
    · exact ⟨[], init n, .inr h0⟩

/-- C24 fails: for every initial ring size there is an execution with one producer and one thief in which the thief
reads an array that `deque_resize` has freed. -/
theorem steal_after_growth_ub (n : Nat) (hn : 0 < n) :
    ∃ acts, OneProducer 0 acts ∧ (exec (init n) acts).ub = true := by
  obtain ⟨acts, s, h⟩ := fill n n (Nat.le_refl _)
  rcases h with ⟨e, ho, q, hi, ht, hb, hc, hnx, hsz⟩ | h0
  · -- the thief stops just before loading the slot
    let s1 : St := setPc s 1 (.steal3 0 0)
    have e1 : exec s [.start 1 .steal, .go 1, .go 1, .go 1] = s1 := by
      have h0 : 0 < s.bottom := by omega
      simp only [exec, List.foldl_cons, List.foldl_nil]
      simp [step, go, setPc, q.ub, hi 1, ht, hc, s1, h0]
    have q1 : Quiet s1 := ⟨q.ub, q.le, q.fit, q.pos, q.live, q.cur⟩
    have i1 : s1.pcs 0 = .idle := by simp [s1, setPc, hi 0]
    have hfull : s1.bottom - s1.top = (s1.heap s1.cur).size := by
      show s.bottom - s.top = (s.heap s.cur).size
      rw [hc, hsz]; omega
    have e2 := push_run_full q1 i1 9 hfull
    refine ⟨acts ++ ([.start 1 .steal, .go 1, .go 1, .go 1] ++
      (.start 0 (.push 9) :: List.replicate 12 (.go 0)) ++ [.go 1]), ?_, ?_⟩
    · intro i w
      constructor
      · intro hm
        rcases List.mem_append.1 hm with h1 | h1
        · exact (ho i w).1 h1
        · simp at h1
          exact h1.1
      · intro hm
        rcases List.mem_append.1 hm with h1 | h1
        · exact (ho i w).2 h1
        · simp at h1
    · have e0 : exec (init n) (acts ++ ([.start 1 .steal, .go 1, .go 1, .go 1] ++
          (.start 0 (.push 9) :: List.replicate 12 (.go 0)) ++ [.go 1])) = step (runOp s1 0 (.push 9)) (.go 1) := by
        rw [← e1, ← e]
        simp only [exec, List.foldl_append, runOp]
        rfl
      rw [e0, e2, step_go (by exact q.ub)]
      have hc1 : s1.cur = 0 := hc
      have hn1 : s1.next = 1 := hnx
      simp [go, s1, setPc, fail, hc, hnx]
  · omega

/-- C24: in any reachable state (one producer, no undefined behaviour) an idle thread that steals with nobody
interfering gets the oldest task left, or "empty" if there is none. -/
theorem steal_alone_succeeds (o : Tid) (n : Nat) (hn : 0 < n) (acts : List Act) (hacts : OneProducer o acts) (i : Tid)
    (hub : (exec (init n) acts).ub = false) (hi : (exec (init n) acts).pcs i = .idle) :
    (runOp (exec (init n) acts) i .steal).rets = (exec (init n) acts).rets ++
      [(i, match contents (exec (init n) acts) with | [] => .empty | x :: _ => .got x)] := by
  have h := inv_exec acts hacts (.inr (inv_init o hn))
  rw [hub] at h
  simp only [Bool.false_eq_true, false_or] at h
  have q : Quiet (exec (init n) acts) := ⟨hub, h.g.le, h.g.fit, h.g.pos, h.g.live, h.g.cur⟩
  generalize exec (init n) acts = s at *
  rcases Nat.lt_or_ge s.top s.bottom with hlt | hge
  · rw [steal_run q hi hlt]
    obtain ⟨m, hm⟩ : ∃ m, s.bottom - s.top = m + 1 := ⟨s.bottom - s.top - 1, by omega⟩
    simp only [contents, hm, List.range'_succ, List.map_cons]
  · have he : s.top = s.bottom := Nat.le_antisymm q.le hge
    rw [steal_run_empty q hi he]
    simp [contents, he]

/-! ## C24 with several producers -/

/-- Two threads pushing to the same queue at once can lose a task: both pushes complete, the queue then holds one
task.  (In the library every thread that starts a task on another thread's queue pushes to it.) -/
theorem two_producers_lose_task : ∃ acts, (∀ i, Act.start i .take ∉ acts) ∧
    (exec (init 4) acts).ub = false ∧ (exec (init 4) acts).begun = [7, 8] ∧
    (∀ i, (exec (init 4) acts).pcs i = .idle) ∧ contents (exec (init 4) acts) = [some 8] := by
  refine ⟨[.start 0 (.push 7), .start 1 (.push 8), .go 0, .go 1, .go 0, .go 1, .go 0, .go 1, .go 0, .go 1, .go 0, .go 1,
    .go 0, .go 1], by simp, by decide, by decide, ?_, by decide⟩
  intro i
  by_cases h0 : i = 0
  · subst h0; decide
  by_cases h1 : i = 1
  · subst h1; decide
  simp [exec, step, go, setPc, init, h0, h1, Function.update]

/-! ## C26 -/

/-- C26: a push on any well-formed queue, full or not, wherever `top` and `bottom` are, leaves the tasks that were
there, in order, followed by the new one; when the ring was full its size has doubled. -/
theorem push_preserves_contents (s : St) (i : Tid) (w : Task) (hi : s.pcs i = .idle) (hub : s.ub = false)
    (hle : s.top ≤ s.bottom) (hfit : s.bottom - s.top ≤ (s.heap s.cur).size) (hpos : 0 < (s.heap s.cur).size)
    (hlive : (s.heap s.cur).live = true) (hcur : s.cur < s.next) :
    (runOp s i (.push w)).ub = false ∧ (runOp s i (.push w)).pcs i = .idle ∧
    contents (runOp s i (.push w)) = contents s ++ [some w] ∧
    (s.bottom - s.top = (s.heap s.cur).size →
      ((runOp s i (.push w)).heap (runOp s i (.push w)).cur).size = 2 * (s.heap s.cur).size) := by
  have q : Quiet s := ⟨hub, hle, hfit, hpos, hlive, hcur⟩
  have hc := contents_push q hi w
  refine ⟨hc.2.ub, ?_, hc.1, ?_⟩
  · rcases Nat.lt_or_ge (s.bottom - s.top) (s.heap s.cur).size with h | h
    · rw [push_run_fits q hi w h]; exact hi
    · rw [push_run_full q hi w (by omega)]; exact hi
  · intro hfull
    rw [push_run_full q hi w hfull]
    simp only [Function.update_self, putSlot, grown]
    omega

/-- A full ring of size 2 whose contents wrap around. -/
example : contents (runOp { init 2 with top := 3, bottom := 5, heap := fun _ =>
    { size := 2, buf := fun k => some (k + 10), live := true } } 0 (.push 99)) = [some 11, some 10, some 99] := by decide +kernel

/-! ## C25 -/

/-- The abstract deque: push at the back, steal from the front, take from the back. -/
def specStep (l : List Task) : Op → List Task × Option Ret
  | .push w => (l ++ [w], none)
  | .steal => match l with
    | [] => ([], some .empty)
    | x :: r => (r, some (.got (some x)))
  | .take => match l.getLast? with
    | none => ([], some .empty)
    | some x => (l.dropLast, some (.got (some x)))

/-- A whole sequential history on the abstract deque. -/
def specRun : List Task → List (Tid × Op) → List Task × List (Tid × Ret)
  | l, [] => (l, [])
  | l, (i, op) :: ops =>
    let r := specRun (specStep l op).1 ops
    (r.1, (match (specStep l op).2 with | none => [] | some x => [(i, x)]) ++ r.2)

/-- The same history on the model, each operation run to its end. -/
def seqRun (s : St) (ops : List (Tid × Op)) : St := ops.foldl (fun s p => runOp s p.1 p.2) s

theorem seq_refines (ops : List (Tid × Op)) : ∀ (s : St) (l : List Task), Quiet s → (∀ i, s.pcs i = .idle) →
    0 < s.bottom → contents s = l.map some →
    contents (seqRun s ops) = (specRun l ops).1.map some ∧ (seqRun s ops).rets = s.rets ++ (specRun l ops).2 ∧
      (seqRun s ops).ub = false := by
  induction ops with
  | nil => intro s l q _ _ hc; exact ⟨hc, by simp [seqRun, specRun], q.ub⟩
  | cons p ops ih =>
    intro s l q hi hb hc
    obtain ⟨i, op⟩ := p
    have hlen : s.bottom - s.top = l.length := by
      have := congrArg List.length hc
      simpa [contents] using this
    have hle := q.le
    have hfit := q.fit
    cases op with
    | push w =>
      have h1 := contents_push q (hi i) w
      have h2 : (∀ j, (runOp s i (.push w)).pcs j = .idle) ∧ (runOp s i (.push w)).bottom = s.bottom + 1 ∧
          (runOp s i (.push w)).rets = s.rets := by
        rcases Nat.lt_or_ge (s.bottom - s.top) (s.heap s.cur).size with h | h
        · rw [push_run_fits q (hi i) w h]; exact ⟨hi, rfl, rfl⟩
        · rw [push_run_full q (hi i) w (by omega)]; exact ⟨hi, rfl, rfl⟩
      have := ih (runOp s i (.push w)) (l ++ [w]) h1.2 h2.1 (by omega) (by rw [h1.1, hc]; simp)
      rw [h2.2.2] at this
      simpa [seqRun, specRun, specStep] using this
    | steal =>
      cases l with
      | nil =>
        have he : s.top = s.bottom := by simp at hlen; omega
        have hr := steal_run_empty q (hi i) he
        have q' : Quiet (runOp s i .steal) := by rw [hr]; exact ⟨q.ub, q.le, q.fit, q.pos, q.live, q.cur⟩
        rw [hr] at q'
        have := ih _ [] q' hi hb hc
        simpa [seqRun, specRun, specStep, hr] using this
      | cons x l =>
        have hlt : s.top < s.bottom := by simp at hlen; omega
        have hr := steal_run q (hi i) hlt
        obtain ⟨m, hm⟩ : ∃ m, s.bottom - s.top = m + 1 := ⟨s.bottom - s.top - 1, by omega⟩
        have hc' := hc
        simp only [contents, hm, List.range'_succ, List.map_cons, List.cons.injEq] at hc'
        have q' : Quiet (runOp s i .steal) := by
          rw [hr]
          exact ⟨q.ub, by show s.top + 1 ≤ s.bottom; omega, by show s.bottom - (s.top + 1) ≤ (s.heap s.cur).size; omega,
            q.pos, q.live, q.cur⟩
        rw [hr] at q'
        have := ih _ l q' hi hb (by
          simp only [contents]
          rw [show s.bottom - (s.top + 1) = m by omega]
          exact hc'.2)
        simpa [seqRun, specRun, specStep, hr, hc'.1] using this
    | take =>
      rcases List.eq_nil_or_concat l with rfl | ⟨l', x, rfl⟩
      · have he : s.top = s.bottom := by simp at hlen; omega
        have hr := take_run_empty q (hi i) he (by omega)
        have q' : Quiet (runOp s i .take) := by rw [hr]; exact ⟨q.ub, q.le, q.fit, q.pos, q.live, q.cur⟩
        rw [hr] at q'
        have := ih _ [] q' hi hb hc
        simpa [seqRun, specRun, specStep, hr] using this
      · simp only [List.concat_eq_append] at hlen hc ⊢
        simp only [List.length_append, List.length_cons, List.length_nil] at hlen
        have hrng : List.range' s.top (s.bottom - s.top) = List.range' s.top (s.bottom - 1 - s.top) ++ [s.bottom - 1] := by
          rw [show s.bottom - s.top = (s.bottom - 1 - s.top) + 1 by omega, List.range'_concat]
          simp; omega
        have hc' := hc
        simp only [contents, hrng, List.map_append, List.map_cons, List.map_nil] at hc'
        have hcc := List.append_inj' hc' rfl
        simp only [List.cons.injEq, and_true] at hcc
        rcases Nat.lt_or_ge (s.top + 1) s.bottom with hlt | hge
        · have hr := take_run_many q (hi i) hlt
          have q' : Quiet (runOp s i .take) := by
            rw [hr]
            exact ⟨q.ub, by show s.top ≤ s.bottom - 1; omega, by show s.bottom - 1 - s.top ≤ (s.heap s.cur).size; omega,
              q.pos, q.live, q.cur⟩
          rw [hr] at q'
          have := ih _ l' q' hi (by show 0 < s.bottom - 1; omega) hcc.1
          simpa [seqRun, specRun, specStep, hr, hcc.2] using this
        · have he : s.top + 1 = s.bottom := by omega
          have hl' : l' = [] := List.length_eq_zero_iff.1 (by omega)
          subst hl'
          have hr := take_run_one q (hi i) he
          have q' : Quiet (runOp s i .take) := by
            rw [hr]
            exact ⟨q.ub, by show s.top + 1 ≤ s.bottom; omega, by show s.bottom - (s.top + 1) ≤ (s.heap s.cur).size; omega,
              q.pos, q.live, q.cur⟩
          have hbt : s.bottom - 1 = s.top := by omega
          rw [hbt] at hcc
          rw [hr] at q'
          have := ih _ [] q' hi hb (by simp [contents, he])
          simpa [seqRun, specRun, specStep, hr, hcc.2] using this

/-- C25, the part that holds: any history of pushes, takes and steals by any threads, each run to its end before the
next begins, that starts with a push, returns exactly what a list does (take: newest, steal: oldest, empty otherwise)
and leaves exactly the remaining tasks, whatever growth happens on the way.

Missing: a take before the first push (`take_fresh_wrong`), and takes that overlap steals (`take_race_duplicates`). -/
theorem sequential_history_partial (n : Nat) (hn : 0 < n) (i : Tid) (w : Task) (ops : List (Tid × Op)) :
    contents (seqRun (init n) ((i, .push w) :: ops)) = (specRun [] ((i, .push w) :: ops)).1.map some ∧
    (seqRun (init n) ((i, .push w) :: ops)).rets = (specRun [] ((i, .push w) :: ops)).2 ∧
    (seqRun (init n) ((i, .push w) :: ops)).ub = false := by
  have q : Quiet (init n) := ⟨rfl, Nat.le_refl _, Nat.zero_le _, hn, rfl, Nat.zero_lt_one⟩
  have h1 := contents_push (i := i) q rfl w
  have hf := push_run_fits (i := i) q rfl w (by simpa [init] using hn)
  have := seq_refines ops (runOp (init n) i (.push w)) [w] h1.2 (by rw [hf]; intro j; rfl) (by rw [hf]; simp [init])
    (by rw [h1.1]; simp [contents, init])
  rw [show (runOp (init n) i (.push w)).rets = [] by rw [hf]; rfl] at this
  simpa [seqRun, specRun, specStep] using this

example : (specRun [] [(0, .push 1), (0, .push 2), (0, .push 3), (1, .steal), (0, .take), (0, .take), (0, .take)]).2 =
    [(1, .got (some 1)), (0, .got (some 3)), (0, .got (some 2)), (0, .empty)] := by decide

/-- C25 fails: on a fresh queue of any size, `deque_take` does not report "empty": it returns the NULL of an unused
slot, sets `bottom` to 2^64 - 1, and a steal that follows hands out another NULL as if it were a task. -/
theorem take_fresh_wrong (n : Nat) (hn : 0 < n) (i j : Tid) :
    (runOp (init n) i .take).rets = [(i, .got none)] ∧ (runOp (init n) i .take).bottom = 2 ^ 64 - 1 ∧
    (runOp (runOp (init n) i .take) j .steal).rets = [(i, .got none), (j, .got none)] := by
  have q : Quiet (init n) := ⟨rfl, Nat.le_refl _, Nat.zero_le _, hn, rfl, Nat.zero_lt_one⟩
  have h := take_run_zero (i := i) q rfl rfl
  refine ⟨by rw [h]; rfl, by rw [h], ?_⟩
  rw [h]
  obtain ⟨N, hN⟩ : ∃ N, N = 2 ^ 64 - 1 := ⟨_, rfl⟩
  rw [← hN]
  have hN0 : 0 < N := by rw [hN]; norm_num
  simp [runOp, exec, step, go, setPc, done, init, hN0]

/-- C25 fails: a take that overlaps two steals delivers the same task twice, because `top` is read before `bottom` is
published. -/
theorem take_race_duplicates : ∃ acts, (∀ i w, (Act.start i (.push w) ∈ acts → i = 0)) ∧
    (exec (init 4) acts).ub = false ∧ (exec (init 4) acts).pushed = [7, 8] ∧
    delivered (exec (init 4) acts).rets = [some 7, some 8, some 8] := by
  refine ⟨[.start 0 (.push 7)] ++ List.replicate 6 (.go 0) ++ [.start 0 (.push 8)] ++ List.replicate 6 (.go 0) ++
    [.start 0 .take, .go 0, .go 0] ++ [.start 1 .steal] ++ List.replicate 5 (.go 1) ++ [.start 1 .steal] ++
    List.replicate 5 (.go 1) ++ List.replicate 3 (.go 0), ?_, by decide +kernel, by decide +kernel, by decide +kernel⟩
  intro i w h
  simp at h
  rcases h with h | h
  · exact h.1
  · exact h.1

end Verif.Deque
