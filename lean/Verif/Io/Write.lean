import Verif.Mem

/-!
# Reading and writing through the event loop (`src/async_io.c` 297-328), C51
-/

namespace Verif.Io.Write

/-- One answer of the kernel to `write` or `read`. -/
inductive Ans where
  | did (m : Nat)
  | again
  | error

/-- The result: `wait` if the list of answers ends while the task waits for the descriptor. -/
inductive Out where
  | ret (v : Int)
  | wait
  deriving DecidableEq

/-- `async_write`, src/async_io.c:316-328: `tot` bytes are already written, `sink` is what the descriptor accepted (`write` takes
the bytes at `buf + tot`).  One answer of the kernel is used for each call of `write`. -/
def writeLoop (buf : Bytes) (n : Nat) (tot : Nat) (sink : Bytes) : List Ans → Out × Bytes
  | [] => if tot < n then (.wait, sink) else (.ret tot, sink)
  | a :: as =>
    if tot < n then
      match a with
      | .again => writeLoop buf n tot sink as
      | .error => (.ret (-1), sink)
      | .did m =>
        let sink := sink ++ (buf.drop tot).take m
        if m = 0 then (.ret tot, sink) else writeLoop buf n (tot + m) sink as
    else (.ret tot, sink)

/-- The count is a C `int`: a negative one writes nothing. -/
def asyncWrite (buf : Bytes) (n : Int) (ans : List Ans) : Out × Bytes := writeLoop buf n.toNat 0 [] ans

/-- What the kernel promises: never more bytes than asked for. -/
def Honest (n : Nat) : Nat → List Ans → Prop
  | _, [] => True
  | tot, .did m :: as => m ≤ n - tot ∧ Honest n (tot + m) as
  | tot, .again :: as => Honest n tot as
  | tot, .error :: as => Honest n tot as

theorem writeLoop_spec (buf : Bytes) (n : Nat) (hn : n ≤ buf.length) : ∀ (ans : List Ans) (tot : Nat) (sink : Bytes),
    tot ≤ n → Honest n tot ans → sink = buf.take tot →
    ∃ k, tot ≤ k ∧ k ≤ n ∧ (writeLoop buf n tot sink ans).2 = buf.take k ∧
      (∀ v, (writeLoop buf n tot sink ans).1 = .ret v → v = k ∧ (k = n ∨ .did 0 ∈ ans) ∨ v = -1 ∧ .error ∈ ans)
  | [], tot, sink, ht, _, hs => by
    unfold writeLoop
    by_cases h : tot < n
    · rw [if_pos h]
      exact ⟨tot, le_refl _, ht, hs, fun v hv => by simp at hv⟩
    · rw [if_neg h]
      refine ⟨tot, le_refl _, ht, hs, fun v hv => ?_⟩
      simp only [Out.ret.injEq] at hv
      exact .inl ⟨hv.symm, .inl (by omega)⟩
  | .again :: as, tot, sink, ht, hh, hs => by
    unfold writeLoop
    by_cases h : tot < n
    · rw [if_pos h]
      obtain ⟨k, h1, h2, h3, h4⟩ := writeLoop_spec buf n hn as tot sink ht hh hs
      refine ⟨k, h1, h2, h3, fun v hv => ?_⟩
      rcases h4 v hv with ⟨a, b⟩ | ⟨a, b⟩
      · exact .inl ⟨a, b.imp_right (List.mem_cons_of_mem _)⟩
      · exact .inr ⟨a, List.mem_cons_of_mem _ b⟩
    · rw [if_neg h]
      refine ⟨tot, le_refl _, ht, hs, fun v hv => ?_⟩
      simp only [Out.ret.injEq] at hv
      exact .inl ⟨hv.symm, .inl (by omega)⟩
  | .error :: as, tot, sink, ht, hh, hs => by
    unfold writeLoop
    by_cases h : tot < n
    · rw [if_pos h]
      refine ⟨tot, le_refl _, ht, hs, fun v hv => ?_⟩
      simp only [Out.ret.injEq] at hv
      exact .inr ⟨hv.symm, List.mem_cons_self ..⟩
    · rw [if_neg h]
      refine ⟨tot, le_refl _, ht, hs, fun v hv => ?_⟩
      simp only [Out.ret.injEq] at hv
      exact .inl ⟨hv.symm, .inl (by omega)⟩
  | .did m :: as, tot, sink, ht, hh, hs => by
    unfold writeLoop
    by_cases h : tot < n
    · rw [if_pos h]
      simp only
      have hs' : sink ++ (buf.drop tot).take m = buf.take (tot + m) := by
        rw [hs, List.take_add]
      by_cases hm : m = 0
      · subst hm
        rw [if_pos rfl]
        refine ⟨tot, le_refl _, ht, by simpa using hs, fun v hv => ?_⟩
        simp only [Out.ret.injEq] at hv
        exact .inl ⟨hv.symm, .inr (List.mem_cons_self ..)⟩
      · rw [if_neg hm]
        obtain ⟨k, h1, h2, h3, h4⟩ := writeLoop_spec buf n hn as (tot + m) _ (by have := hh.1; omega) hh.2 hs'
        refine ⟨k, by omega, h2, h3, fun v hv => ?_⟩
        rcases h4 v hv with ⟨a, b⟩ | ⟨a, b⟩
        · exact .inl ⟨a, b.imp_right (List.mem_cons_of_mem _)⟩
        · exact .inr ⟨a, List.mem_cons_of_mem _ b⟩
    · rw [if_neg h]
      refine ⟨tot, le_refl _, ht, hs, fun v hv => ?_⟩
      simp only [Out.ret.injEq] at hv
      exact .inl ⟨hv.symm, .inl (by omega)⟩

/-- Claim C51: whatever the kernel answers, the descriptor has accepted a prefix of the buffer, in order and without repetition;
a result `v ≥ 0` is the length of that prefix, and it is the whole count unless the kernel accepted zero bytes; the other
result is -1, after an error. -/
theorem write_exact_prefix (buf : Bytes) (n : Nat) (hn : n ≤ buf.length) (ans : List Ans) (hk : Honest n 0 ans) :
    ∃ k ≤ n, (asyncWrite buf n ans).2 = buf.take k ∧
      ∀ v, (asyncWrite buf n ans).1 = .ret v → (v = k ∧ (k = n ∨ .did 0 ∈ ans)) ∨ (v = -1 ∧ .error ∈ ans) := by
  obtain ⟨k, _, h2, h3, h4⟩ := writeLoop_spec buf n hn ans 0 [] (by omega) hk (by simp)
  exact ⟨k, h2, h3, h4⟩

/-- It ends: as soon as the kernel has accepted as many bytes as asked for, without error and zero-byte answers before, the call
returns the full count (any number of EAGAIN in between). -/
theorem write_completes (buf : Bytes) (n : Nat) (ms : List Nat) (ans : List Ans) (hpos : ∀ m ∈ ms, m ≠ 0) (hsum : ms.sum = n)
    (hans : ans.filter (fun a => match a with | .again => false | _ => true) = ms.map .did) :
    (asyncWrite buf n ans).1 = .ret n := by
  have key : ∀ (ans : List Ans) (ms : List Nat) (tot : Nat) (sink : Bytes), (∀ m ∈ ms, m ≠ 0) → tot + ms.sum = n →
      ans.filter (fun a => match a with | .again => false | _ => true) = ms.map .did →
      (writeLoop buf n tot sink ans).1 = .ret n := by
    intro ans
    induction ans with
    | nil =>
      intro ms tot sink hp hs ha
      have : ms = [] := by simpa using ha.symm
      subst this
      unfold writeLoop
      simp only [List.sum_nil] at hs
      rw [if_neg (by omega)]
      simp; omega
    | cons a as ih =>
      intro ms tot sink hp hs ha
      unfold writeLoop
      by_cases h : tot < n
      · rw [if_pos h]
        cases a with
        | again =>
          simp only
          exact ih ms tot sink hp hs (by simpa using ha)
        | error =>
          exfalso
          cases ms with
          | nil => simp at ha
          | cons m ms => simp at ha
        | did m =>
          cases ms with
          | nil => simp at ha
          | cons m' ms =>
            simp only [List.filter_cons, if_true, List.map_cons, List.cons.injEq, Ans.did.injEq] at ha
            obtain ⟨rfl, ha⟩ := ha
            simp only
            rw [if_neg (hp m (List.mem_cons_self ..))]
            exact ih ms (tot + m) _ (fun x hx => hp x (List.mem_cons_of_mem _ hx)) (by simp at hs; omega) ha
      · rw [if_neg h]
        simp; omega
  exact key ans ms 0 [] hpos (by omega) hans

/-- A negative or zero count writes nothing and returns 0. -/
theorem write_nothing (buf : Bytes) (n : Int) (hn : n ≤ 0) (ans : List Ans) : asyncWrite buf n ans = (.ret 0, []) := by
  unfold asyncWrite
  cases ans <;> simp [writeLoop, hn]

/-- Two partial writes with EAGAIN in between. -/
example : asyncWrite [1, 2, 3, 4, 5] 5 [.again, .did 2, .again, .again, .did 3] = (.ret 5, [1, 2, 3, 4, 5]) := by
  simp [asyncWrite, writeLoop]

example : Honest 5 0 [.again, .did 2, .again, .again, .did 3] := by simp [Honest]

/-! ## Reading -/

/-- One answer of the kernel to `read`: the bytes it hands over. -/
inductive RAns where
  | got (b : Bytes)
  | again
  | error

/-- `async_read`, src/async_io.c:308-314: the result and what is in the buffer; `none` while waiting. -/
def asyncRead : List RAns → Option (Int × Bytes)
  | [] => none
  | .got b :: _ => some (b.length, b)
  | .again :: as => asyncRead as
  | .error :: _ => some (-1, [])

/-- The result of a read is the kernel's first answer other than EAGAIN: no bytes are skipped or read twice. -/
theorem read_first_answer (k : Nat) (b : Bytes) (as : List RAns) :
    asyncRead (List.replicate k .again ++ .got b :: as) = some ((b.length : Int), b) := by
  induction k with
  | zero => rfl
  | succ k ih => simpa [List.replicate_succ, asyncRead] using ih

end Verif.Io.Write
