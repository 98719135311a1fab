import Verif.Arrays.Lemmas

/-!
# Array properties (C01 - C05)
-/

namespace Verif.Arrays

/-! ## C01: histories behave like a list -/

/-- C01 (part): with an allocator whose `realloc` keeps blocks in place, every history through the handle
returned by `arrays(n, ...)` gives exactly the answers of a list and is free of undefined behaviour.
Missing from the full claim: allocators that move the block (see `array_history_moving_ub`). -/
theorem array_history_inplace_partial (cpus : Nat) (m : Heap) (vs : List Val) (ops : List Op) (mv0 mvs : List Bool)
    (inplace : ∀ b ∈ mvs, b = false) (xs : List Val) (outs : List Out) (spec : specRun vs ops = some (xs, outs)) :
    ∃ m0 h m1, arrays cpus mv0 m vs = .ok (m0, h) ∧ run mvs m0 h ops = .ok (m1, outs) ∧
      contents m1 h = .ok xs := by
  obtain ⟨m0, e0, R0, _, _⟩ := arrays_rep cpus mv0 m vs
  obtain ⟨m1, c1, e1, R1, _⟩ := run_inplace R0 (by decide) (by have := initialCap_gt cpus vs.length; omega) inplace spec
  exact ⟨m0, m.length, m1, e0, e1, contents_of_rep R1⟩

example : specRun [1, 2] [.append 3, .shift, .get 1, .pop, .remove 7, .size] =
    some ([2], [.unit, .value 1, .value 3, .value 3, .unit, .nat 1]) := by decide

/-- C01 (part): for every allocator, moving or not, every history that never holds more elements than the
initial capacity gives exactly the answers of a list and is free of undefined behaviour.
Missing from the full claim: histories that outgrow the initial capacity. -/
theorem array_history_within_capacity_partial (cpus : Nat) (m : Heap) (vs : List Val) (ops : List Op)
    (mv0 mvs : List Bool) (fits : peak vs ops ≤ initialCap cpus vs.length)
    (xs : List Val) (outs : List Out) (spec : specRun vs ops = some (xs, outs)) :
    ∃ m0 h m1, arrays cpus mv0 m vs = .ok (m0, h) ∧ run mvs m0 h ops = .ok (m1, outs) ∧
      contents m1 h = .ok xs := by
  obtain ⟨m0, e0, R0, _, _⟩ := arrays_rep cpus mv0 m vs
  obtain ⟨m1, e1, R1⟩ := run_room (mvs := mvs) R0 (by decide) (by have := initialCap_gt cpus vs.length; omega) fits spec
  exact ⟨m0, m.length, m1, e0, e1, contents_of_rep R1⟩

example : peak [1, 2] [.append 3, .shift, .append 4, .pop] ≤ initialCap 4 2 := by decide

/-- Filling an array to its capacity and appending once more with a moving `realloc` frees the block the
caller's handle points to. -/
theorem append_moving_frees {m : Heap} {h k xs cap} (R : Rep m h k xs cap) (hk : k ≠ .tuple)
    (full : xs.length = cap) (pos : 0 < cap) (v : Val) :
    ∃ m', dataAppend true m h v = .ok (m', .unit) ∧ m'[h]? = some none := by
  have hload : ∃ s, m.load h = .ok ⟨k, xs.length, cap, s⟩ := by
    obtain ⟨⟨s, e, _, _⟩, _⟩ := R; exact ⟨s, load_of_getElem? e⟩
  obtain ⟨s, hl⟩ := hload
  have hlt : h < m.length := lt_of_get (get_of_load hl)
  obtain ⟨m1, eg, R1, hf, l1, f1⟩ := grow_move R (cap * 2) (by omega)
  obtain ⟨⟨s1, e1, sl1, st1⟩, le1⟩ := R1
  refine ⟨m1.store m.length ⟨k, xs.length + 1, cap * 2, s1.set xs.length (some v)⟩, ?_, ?_⟩
  · have : cap ≤ xs.length := by omega
    have lt : xs.length < cap * 2 := by omega
    simp [dataAppend, hl, hk, this, eg, load_of_getElem? e1, Block.write, sl1, lt]
  · rw [store_get_ne (Nat.ne_of_lt hlt), hf]

theorem run_append {ops1 : List Op} : ∀ {m h m1 o1 ops2 mvs1 mvs2},
    mvs1.length = ops1.length → run mvs1 m h ops1 = .ok (m1, o1) →
    run (mvs1 ++ mvs2) m h (ops1 ++ ops2) = (run mvs2 m1 h ops2 >>= fun r => .ok (r.1, o1 ++ r.2)) := by
  induction ops1 with
  | nil =>
    intro m h m1 o1 ops2 mvs1 mvs2 hl e
    have : mvs1 = [] := List.length_eq_zero_iff.mp hl
    subst this
    simp [run] at e; obtain ⟨rfl, rfl⟩ := e
    simp; cases run mvs2 m h ops2 <;> rfl
  | cons op ops ih =>
    intro m h m1 o1 ops2 mvs1 mvs2 hl e
    cases mvs1 with
    | nil => simp at hl
    | cons b mvs1 =>
      simp only [run, List.headD_cons, List.tail_cons, Res.bind_eq_ok] at e
      obtain ⟨⟨m2, p⟩, e1, ⟨m3, q⟩, e2, e⟩ := e
      simp at e; obtain ⟨rfl, rfl⟩ := e
      simp only [List.cons_append, run, List.headD_cons, List.tail_cons, e1, Res.ok_bind]
      rw [ih (by simpa using hl) e2]
      cases run mvs2 m3 h ops2 <;> simp

/-- C01 is false of the code in general: whatever the initial contents, appending until the capacity is
exceeded under an allocator that moves the block on that growth, and then asking for the size through the
same handle, is undefined behaviour (use after free). -/
theorem array_history_moving_ub (cpus : Nat) (m : Heap) (vs : List Val) (mv0 : List Bool) (v : Val) :
    ∃ m0 h ops mvs, arrays cpus mv0 m vs = .ok (m0, h) ∧ (specRun vs ops).isSome ∧
      run mvs m0 h ops = .ub := by
  obtain ⟨m0, e0, R0, _, _⟩ := arrays_rep cpus mv0 m vs
  set c := initialCap cpus vs.length with hc
  have hgt : vs.length < c := initialCap_gt cpus vs.length
  set n := c - vs.length with hn
  have specApp : ∀ (k : Nat) (xs : List Val), ∃ outs, specRun xs (List.replicate k (.append v)) =
      some (xs ++ List.replicate k v, outs) ∧ peak xs (List.replicate k (.append v)) ≤ xs.length + k := by
    intro k
    induction k with
    | zero => intro xs; exact ⟨[], by simp [specRun], by simp [peak]⟩
    | succ k ih =>
      intro xs
      obtain ⟨outs, e, hp⟩ := ih (xs ++ [v])
      refine ⟨.unit :: outs, ?_, ?_⟩
      · simp [List.replicate_succ, specRun, specStep, e]
      · simp only [List.replicate_succ, peak, specStep]
        simp at hp
        omega
  obtain ⟨outs, es, hp⟩ := specApp n vs
  obtain ⟨m1, e1, R1⟩ := run_room (mvs := List.replicate n false) R0 (by decide) (by omega)
    (by omega) es
  obtain ⟨m2, e2, hf⟩ := append_moving_frees R1 (by decide) (by simp; omega) (by omega) v
  refine ⟨m0, m.length, List.replicate n (.append v) ++ [.append v, .size],
    List.replicate n false ++ [true], e0, ?_, ?_⟩
  · have : List.replicate n (Op.append v) ++ [.append v, .size] = List.replicate (n+1) (Op.append v) ++ [.size] := by
      rw [List.replicate_succ', List.append_assoc]; rfl
    have key : ∀ (l : List Op) (xs : List Val), (∀ o ∈ l, o = .append v ∨ o = .size) → (specRun xs l).isSome := by
      intro l
      induction l with
      | nil => intro xs _; rfl
      | cons o l ih =>
        intro xs h
        rcases h o (by simp) with rfl | rfl
        · have := ih (xs ++ [v]) (fun o ho => h o (by simp [ho]))
          obtain ⟨r, hr⟩ := Option.isSome_iff_exists.mp this
          simp [specRun, specStep, hr]
        · have := ih xs (fun o ho => h o (by simp [ho]))
          obtain ⟨r, hr⟩ := Option.isSome_iff_exists.mp this
          simp [specRun, specStep, hr]
    apply key
    intro o ho
    simp at ho
    rcases ho with ⟨_, rfl⟩ | rfl | rfl <;> simp
  · rw [run_append (by simp) e1]
    simp [run, step, e2, dataSize, Heap.load, hf]

/-! ## C02: appending to library-produced arrays -/

/-- C02 is false: `$copy` of an empty array gives an array with no capacity, and the next `$append`
writes outside the block, for every allocator. -/
theorem append_after_empty_copy_ub (cpus : Nat) (m : Heap) (src : Handle) (mvs : List Bool) (mv mv' : Bool) (v : Val)
    (empty : contents m src = .ok []) (notTuple : kindOf m src ≠ .ok .tuple) :
    ∃ m' d, dataCopy cpus mvs mv m src = .ok (m', d) ∧ dataAppend mv' m' d v = .ub := by
  obtain ⟨k, hk⟩ : ∃ k, kindOf m src = .ok k := by
    simp only [contents, Res.bind_eq_ok] at empty
    obtain ⟨b, hb, _⟩ := empty
    exact ⟨b.kind, by simp [kindOf, hb]⟩
  obtain ⟨c, s, eb, _⟩ := block_of_contents empty hk
  have hlt := lt_of_get eb
  obtain ⟨m0, e0, R0, l0, f0⟩ := arrays_rep cpus [] m []
  have es : m0[src]? = some (some ⟨k, 0, c, s⟩) := by rw [f0 src hlt]; simpa using eb
  obtain ⟨⟨s0, g0, sl0, st0⟩, le0⟩ := R0
  have R0 : Rep m0 m.length .array [] (initialCap cpus 0) := ⟨⟨s0, g0, sl0, st0⟩, le0⟩
  obtain ⟨m2, d, e2, R2, hd, l2, f2⟩ := grow_any R0 mv 0 (by simp)
  have ne : src ≠ m.length := Nat.ne_of_lt hlt
  have es2 : m2[src]? = some (some ⟨k, 0, c, s⟩) := by
    rw [f2 src ne (by rw [l0]; exact Nat.lt_succ_of_lt hlt)]; exact es
  obtain ⟨m3, e3, R3, l3, f3⟩ := setKind_rep R2 k
  refine ⟨m3, d, ?_, ?_⟩
  · simp [dataCopy, e0, load_of_getElem? es, copyLoop, load_of_getElem? g0, e2, load_of_getElem? es2, e3]
  · have hkt : k ≠ .tuple := by rintro rfl; exact notTuple hk
    have hl : ∃ s', m3.load d = .ok ⟨k, 0, 0, s'⟩ := by
      obtain ⟨⟨s', e', _, _⟩, _⟩ := R3; exact ⟨s', load_of_getElem? e'⟩
    obtain ⟨s', hl⟩ := hl
    obtain ⟨m4, h4, e4, R4, _⟩ := grow_any R3 mv' 0 (by simp)
    obtain ⟨⟨s5, e5, sl5, _⟩, _⟩ := R4
    have : s5 = [] := List.length_eq_zero_iff.mp sl5
    subst this
    simp [dataAppend, hl, hkt, e4, load_of_getElem? e5, Block.write]

example : ∃ m src, contents m src = .ok [] ∧ kindOf m src = .ok .array ∧
    (dataCopy 1 [] false m src >>= fun r => dataAppend false r.1 r.2 7) = .ub :=
  ⟨[some ⟨.array, 0, 2, [none, none]⟩], 0, by decide, by decide, by decide⟩

/-- C02 is false of `rangeing` too: an empty range has no capacity, appending to it is undefined. -/
theorem append_after_empty_rangeing_ub (cpus : Nat) (m : Heap) (a b s : Int) (hab : b ≤ a) (hint : inInt (b - a))
    (mvs : List Bool) (mv mv' : Bool) (v : Val) (fuel : Nat) :
    ∃ m' d, rangeing cpus mvs mv (fuel + 1) m a b s = some (.ok (m', d)) ∧ dataAppend mv' m' d v = .ub := by
  obtain ⟨m0, e0, R0, l0, f0⟩ := arrays_rep cpus [] m []
  obtain ⟨⟨s0, g0, sl0, st0⟩, le0⟩ := R0
  have R0 : Rep m0 m.length .array [] (initialCap cpus 0) := ⟨⟨s0, g0, sl0, st0⟩, le0⟩
  obtain ⟨m2, d, e2, R2, hd, l2, f2⟩ := grow_any R0 mv 0 (by simp)
  obtain ⟨m3, e3, R3, l3, f3⟩ := setKind_rep R2 .range
  refine ⟨m3, d, ?_, ?_⟩
  · simp [rangeing, e0, hint, rangeLoop, Int.not_lt.mpr hab, load_of_getElem? g0, e2, e3]
  · have hl : ∃ s', m3.load d = .ok ⟨.range, 0, 0, s'⟩ := by
      obtain ⟨⟨s', e', _, _⟩, _⟩ := R3; exact ⟨s', load_of_getElem? e'⟩
    obtain ⟨s', hl⟩ := hl
    obtain ⟨m4, h4, e4, R4, _⟩ := grow_any R3 mv' 0 (by simp)
    obtain ⟨⟨s5, e5, sl5, _⟩, _⟩ := R4
    have : s5 = [] := List.length_eq_zero_iff.mp sl5
    subst this
    simp [dataAppend, hl, e4, load_of_getElem? e5, Block.write]

example : inInt (3 - 5) := by decide

/-! ## C04: `$copy` -/

theorem copy_rep (cpus : Nat) (m : Heap) (src : Handle) (mvs : List Bool) (mv : Bool)
    (xs : List Val) (k : Kind) (hc : contents m src = .ok xs) (hk : kindOf m src = .ok k)
    (H : xs.length ≤ queueSize cpus ∨ ∀ b ∈ mvs, b = false) :
    ∃ m' d, dataCopy cpus mvs mv m src = .ok (m', d) ∧ d ≠ src ∧ Rep m' d k xs xs.length ∧ contents m' src = .ok xs ∧ kindOf m' src = .ok k := by
  obtain ⟨c, s, eb, hread⟩ := block_of_contents hc hk
  have hlt := lt_of_get eb
  have ne : m.length ≠ src := (Nat.ne_of_lt hlt).symm
  obtain ⟨m0, e0, R0, l0, f0⟩ := arrays_rep cpus [] m []
  have es : m0[src]? = some (some ⟨k, xs.length, c, s⟩) := by rw [f0 src hlt]; exact eb
  obtain ⟨m1, c1, e1, R1, p1, l1, f1⟩ := copyLoop_ok (mvs := mvs) ne hread xs.length 0 R0 (by decide)
    (by have := initialCap_gt cpus 0; simpa using this) es (by simp) (by simpa [initialCap] using H)
  simp only [List.nil_append, List.drop_zero] at R1
  have es1 : m1[src]? = some (some ⟨k, xs.length, c, s⟩) := by rw [f1 src (Ne.symm ne)]; exact es
  obtain ⟨m2, d, e2, R2, hd, l2, f2⟩ := grow_any R1 mv xs.length le_rfl
  have hlt1 : src < m1.length := lt_of_get es1
  have es2 : m2[src]? = some (some ⟨k, xs.length, c, s⟩) := by rw [f2 src (Ne.symm ne) hlt1]; exact es1
  have hdne : d ≠ src := by
    rcases hd with rfl | rfl
    · exact ne
    · exact (Nat.ne_of_lt hlt1).symm
  obtain ⟨m3, e3, R3, l3, f3⟩ := setKind_rep R2 k
  have hl1 : ∃ s', m1.load m.length = .ok ⟨.array, xs.length, c1, s'⟩ := by
    obtain ⟨⟨s', e', _, _⟩, _⟩ := R1; exact ⟨s', load_of_getElem? e'⟩
  obtain ⟨s', hl1⟩ := hl1
  have hsrc : m3[src]? = m[src]? := by rw [f3 src (Ne.symm hdne), es2, eb]
  refine ⟨m3, d, ?_, hdne, R3, ?_, ?_⟩
  · simp [dataCopy, e0, load_of_getElem? es, e1, hl1, e2, load_of_getElem? es2, e3]
  · rw [contents_congr hsrc, hc]
  · rw [kindOf_congr hsrc, hk]

/-- C04 (content): for every source array, `$copy` gives a fresh array with the same elements and kind and
leaves the source as it was, provided either realloc keeps blocks in place or the source has at most
`data_queue_size()` elements.
Missing from the full claim: long sources under a moving allocator (see `copy_long_moving_ub`). -/
theorem copy_equal_partial (cpus : Nat) (m : Heap) (src : Handle) (mvs : List Bool) (mv : Bool)
    (xs : List Val) (k : Kind) (hc : contents m src = .ok xs) (hk : kindOf m src = .ok k)
    (H : xs.length ≤ queueSize cpus ∨ ∀ b ∈ mvs, b = false) :
    ∃ m' d, dataCopy cpus mvs mv m src = .ok (m', d) ∧ d ≠ src ∧ contents m' d = .ok xs ∧
      kindOf m' d = .ok k ∧ contents m' src = .ok xs ∧ kindOf m' src = .ok k := by
  obtain ⟨m', d, e, hd, R, h1, h2⟩ := copy_rep cpus m src mvs mv xs k hc hk H
  exact ⟨m', d, e, hd, contents_of_rep R, kindOf_of_rep R, h1, h2⟩

example : ∃ m src, contents m src = .ok [5, 6] ∧ kindOf m src = .ok .array ∧ ([5, 6] : List Val).length ≤ queueSize 4 :=
  ⟨[some ⟨.array, 2, 4, [some 5, some 6, none, none]⟩], 0, by decide, by decide, by decide⟩

/-- C04 (independence): any successful history through one handle, under any allocator, leaves every other
array exactly as it was. -/
theorem history_independent (mvs : List Bool) (m m' : Heap) (h other : Handle) (ops : List Op) (outs : List Out)
    (e : run mvs m h ops = .ok (m', outs)) (ne : other ≠ h) (xs : List Val) (hc : contents m other = .ok xs) :
    contents m' other = .ok xs ∧ kindOf m' other = kindOf m other := by
  have hg := (run_frame e).2 other ne (lt_of_contents hc)
  exact ⟨by rw [contents_congr hg, hc], kindOf_congr hg⟩

example : ∃ m', run [true, false] [some ⟨.array, 1, 1, [some 5]⟩, some ⟨.array, 1, 1, [some 9]⟩] 0
    [.append 4] = .ok (m', [.unit]) ∧ contents m' 1 = .ok [9] := ⟨_, rfl, by decide⟩

/-- C04 is false for long sources when realloc moves: copying an array with more than
`data_queue_size() + 1` elements uses the destination after it was freed. -/
theorem copy_long_moving_ub (cpus : Nat) (m : Heap) (src : Handle) (mv : Bool) (xs : List Val) (k : Kind)
    (hc : contents m src = .ok xs) (hk : kindOf m src = .ok k) (long : queueSize cpus + 1 < xs.length) :
    ∃ mvs, dataCopy cpus mvs mv m src = .ub := by
  obtain ⟨c, s, eb, hread⟩ := block_of_contents hc hk
  have hlt := lt_of_get eb
  have ne : m.length ≠ src := (Nat.ne_of_lt hlt).symm
  obtain ⟨m0, e0, R0, l0, f0⟩ := arrays_rep cpus [] m []
  have es : m0[src]? = some (some ⟨k, xs.length, c, s⟩) := by rw [f0 src hlt]; exact eb
  refine ⟨List.replicate (queueSize cpus) false ++ [true], ?_⟩
  have hq := queueSize_pos cpus
  -- the loop reaches the growing append and then loses the destination
  have loop : ∀ (n i : Nat) {mm : Heap} {ys : List Val}, Rep mm m.length .array ys (queueSize cpus) →
      mm[src]? = some (some ⟨k, xs.length, c, s⟩) → ys.length + n = queueSize cpus → i + n + 1 < xs.length →
      copyLoop (List.replicate n false ++ [true]) mm m.length src i (xs.length - i) = .ub := by
    intro n
    induction n with
    | zero =>
      intro i mm ys R hs hl hi
      obtain ⟨m2, e2, hf⟩ := append_moving_frees R (by decide) (by omega) hq xs[i]
      obtain ⟨q, hqn⟩ : ∃ q, xs.length - i = q + 1 + 1 := ⟨xs.length - i - 2, by omega⟩
      rw [hqn]
      have h2 : m2[src]? = some (some ⟨k, xs.length, c, s⟩) := by
        have := (step_frame (op := .append xs[i]) e2).2 src (Ne.symm ne) (lt_of_get hs)
        rw [this]; exact hs
      have hi1 : i < xs.length := by omega
      have hi2 : i + 1 < xs.length := by omega
      have e3 : ∀ b v, dataAppend b m2 m.length v = .ub := by
        intro b v; simp [dataAppend, Heap.load, hf]
      simp [copyLoop, load_of_getElem? hs, hi1, hread i hi1, e2, load_of_getElem? h2, hi2, hread _ hi2, e3]
    | succ n ih =>
      intro i mm ys R hs hl hi
      obtain ⟨m2, e2, R2, l2, f2⟩ := append_room R (by decide) (by omega) false xs[i]
      obtain ⟨q, hqn⟩ : ∃ q, xs.length - i = q + 1 := ⟨xs.length - i - 1, by omega⟩
      have h2 : m2[src]? = some (some ⟨k, xs.length, c, s⟩) := by
        rw [f2 src (Ne.symm ne)]; exact hs
      have := ih (i + 1) R2 h2 (by simp; omega) (by omega)
      have hi1 : i < xs.length := by omega
      rw [hqn]
      have eq : xs.length - (i + 1) = q := by omega
      rw [eq] at this
      simp [List.replicate_succ, copyLoop, load_of_getElem? hs, hi1, hread i hi1, e2, this]
  have := loop (queueSize cpus) 0 (by simpa [initialCap] using R0) es (by simp) (by omega)
  simp only [Nat.sub_zero] at this
  simp [dataCopy, e0, load_of_getElem? es, this]

example : ∃ m src xs, contents m src = .ok xs ∧ kindOf m src = .ok .array ∧ queueSize 0 + 1 < xs.length :=
  ⟨[some ⟨.array, 3, 4, [some 5, some 6, some 7, none]⟩], 0, [5, 6, 7], by decide, by decide, by decide⟩

/-! ## C03: tuples -/

/-- What a caller must see on a tuple holding `xs`. -/
def tupleOut (xs : List Val) : Op → Option Out
  | .get i => (xs[i]?).map .value
  | .size => some (.nat xs.length)
  | _ => some .threw

/-- C03: once an array has been made a tuple, every history of calls raises `logic_error` at each attempted
mutation, answers queries from the unchanged elements, and leaves memory exactly as it was. -/
theorem tuple_immutable (m : Heap) (h : Handle) (xs : List Val) (ops : List Op) (mvs : List Bool) (outs : List Out)
    (hc : contents m h = .ok xs) (hout : ops.mapM (tupleOut xs) = some outs) :
    ∃ m', dataTuple m h = .ok m' ∧ contents m' h = .ok xs ∧ run mvs m' h ops = .ok (m', outs) := by
  obtain ⟨k, hk⟩ : ∃ k, kindOf m h = .ok k := by
    simp only [contents, Res.bind_eq_ok] at hc
    obtain ⟨b, hb, _⟩ := hc
    exact ⟨b.kind, by simp [kindOf, hb]⟩
  obtain ⟨c, s, eb, hread⟩ := block_of_contents hc hk
  refine ⟨m.store h ⟨.tuple, xs.length, c, s⟩, by simp [dataTuple, load_of_getElem? eb], ?_, ?_⟩
  · simp only [contents, load_of_getElem? eb, load_of_getElem? (store_get eb), Res.ok_bind] at hc ⊢
    exact hc
  · generalize hm' : m.store h ⟨.tuple, xs.length, c, s⟩ = m'
    have eb' : m'.load h = .ok ⟨.tuple, xs.length, c, s⟩ := by
      rw [← hm']; exact load_of_getElem? (store_get eb)
    have hread' : ∀ i (hi : i < xs.length), Block.read ⟨.tuple, xs.length, c, s⟩ i = .ok xs[i] := hread
    clear hm' hc hk eb
    induction ops generalizing mvs outs with
    | nil => simp at hout; subst hout; rfl
    | cons op ops ih =>
      rw [List.mapM_cons] at hout
      simp only [Option.bind_eq_bind, Option.bind_eq_some_iff, Option.pure_def, Option.some.injEq] at hout
      obtain ⟨o, ho, os, hos, rfl⟩ := hout
      have hr := ih mvs.tail os hos
      have hs : step (mvs.headD false) m' h op = .ok (m', o) := by
        cases op with
        | get i =>
          simp only [tupleOut, Option.map_eq_some_iff] at ho
          obtain ⟨v, hv, rfl⟩ := ho
          rw [List.getElem?_eq_some_iff] at hv
          obtain ⟨hi, rfl⟩ := hv
          simp [step, index, eb', hread' i hi]
        | _ =>
          simp [tupleOut] at ho; subst ho
          simp [step, dataAppend, dataPop, dataShift, dataRemove, dataReset, dataSize, eb']
      simp only [run, hs, Res.ok_bind, hr, Res.pure_eq]

example : [Op.append 3, .get 1, .pop, .size].mapM (tupleOut [8, 9]) =
    some [.threw, .value 9, .threw, .nat 2] := by decide

/-! ## C05: ranges -/

theorem rangeing_rep (cpus : Nat) (m : Heap) (start stop steps : Int) (n : Nat) (mvs : List Bool) (mv : Bool)
    (fuel : Nat) (hfuel : n < fuel)
    (below : ∀ k : Nat, k < n → start + steps * k < stop) (reached : stop ≤ start + steps * n)
    (noOverflow : inInt (stop - start)) (noOverflow' : ∀ k : Nat, k < n → inInt (start + steps * (k + 1)))
    (H : n ≤ queueSize cpus ∨ ∀ b ∈ mvs, b = false) :
    ∃ m' h, rangeing cpus mvs mv fuel m start stop steps = some (.ok (m', h)) ∧
      Rep m' h .range ((List.range n).map (fun k => BitVec.ofInt 64 (start + steps * (k : Nat)))) n := by
  obtain ⟨m0, e0, R0, l0, f0⟩ := arrays_rep cpus [] m []
  obtain ⟨m1, c1, e1, R1, p1, l1, f1, _⟩ := rangeLoop_ok (mvs := mvs) n fuel start hfuel R0 (by decide)
    (by have := initialCap_gt cpus 0; simpa using this) below (Int.not_lt.mpr reached) noOverflow'
    (by simpa [initialCap] using H)
  simp only [List.nil_append] at R1
  obtain ⟨m2, d, e2, R2, hd, l2, f2⟩ := grow_any R1 mv _ le_rfl
  obtain ⟨m3, e3, R3, l3, f3⟩ := setKind_rep R2 .range
  have hl1 : ∃ s', m1.load m.length = .ok ⟨.array, n, c1, s'⟩ := by
    obtain ⟨⟨s', e', _, _⟩, _⟩ := R1; exact ⟨s', by simpa using load_of_getElem? e'⟩
  obtain ⟨s', hl1⟩ := hl1
  refine ⟨m3, d, ?_, by simpa using R3⟩
  simp only [List.length_map, List.length_range] at e2
  simp [rangeing, e0, noOverflow, e1, hl1, e2, e3]

/-- C05 for `rangeing` with a positive step: exactly the values start, start+step, ... below stop, in order.
Proved for allocators that keep blocks in place, or for ranges not exceeding `data_queue_size()` elements.
Missing from the full claim: longer ranges when realloc moves the block. -/
theorem rangeing_contents_partial (cpus : Nat) (m : Heap) (start stop steps : Int) (n : Nat) (mvs : List Bool) (mv : Bool)
    (fuel : Nat) (hfuel : n < fuel)
    (below : ∀ k : Nat, k < n → start + steps * k < stop) (reached : stop ≤ start + steps * n)
    (noOverflow : inInt (stop - start)) (noOverflow' : ∀ k : Nat, k < n → inInt (start + steps * (k + 1)))
    (H : n ≤ queueSize cpus ∨ ∀ b ∈ mvs, b = false) :
    ∃ m' h, rangeing cpus mvs mv fuel m start stop steps = some (.ok (m', h)) ∧
      contents m' h = .ok ((List.range n).map (fun k => BitVec.ofInt 64 (start + steps * (k : Nat)))) ∧
      kindOf m' h = .ok .range := by
  obtain ⟨m', h, e, R⟩ := rangeing_rep cpus m start stop steps n mvs mv fuel hfuel below reached noOverflow noOverflow' H
  exact ⟨m', h, e, contents_of_rep R, kindOf_of_rep R⟩

example : (∀ k : Nat, k < 3 → (5 : Int) + 2 * k < 10) ∧ (10 : Int) ≤ 5 + 2 * 3 ∧ 3 ≤ queueSize 4 := by
  refine ⟨fun k hk => by omega, by omega, by decide⟩

/-- C05: with step zero and a non-empty interval `rangeing` never returns (it appends forever). -/
theorem rangeing_zero_step_diverges (cpus : Nat) (m : Heap) (start stop : Int) (h : start < stop)
    (i1 : inInt (stop - start)) (i2 : inInt start) (mv : Bool) (fuel : Nat) :
    rangeing cpus [] mv fuel m start stop 0 = none := by
  obtain ⟨m0, e0, R0, l0, f0⟩ := arrays_rep cpus [] m []
  have loop : ∀ (fuel : Nat) {m0 : Heap} {xs cap}, Rep m0 m.length .array xs cap → 0 < cap →
      rangeLoop [] stop 0 m.length fuel m0 start = none := by
    intro fuel
    induction fuel with
    | zero => intros; rfl
    | succ fuel ih =>
      intro m0 xs cap R pos
      obtain ⟨m1, c1, e1, R1, le1, _⟩ := step_ok R (by decide) pos (op := .append (BitVec.ofInt 64 start)) rfl false (by simp)
      simp only [step] at e1
      simp only [rangeLoop, h, if_true, List.headD_nil, e1, Int.add_zero, i2, List.tail_nil]
      exact ih R1 (by omega)
  simp [rangeing, e0, i1, loop fuel R0 (by have := initialCap_gt cpus 0; simpa using this)]

example : inInt (9 - 4) ∧ inInt 4 ∧ (4 : Int) < 9 := by decide

theorem range_rep (cpus : Nat) (m : Heap) (start stop : Int) (mvs : List Bool) (mv : Bool) (fuel : Nat)
    (le : start ≤ stop) (hfuel : (stop - start).toNat < fuel)
    (i1 : inInt start) (i2 : inInt stop) (i3 : inInt (stop - start + 1)) :
    ∃ m' h, range cpus mvs mv fuel m start stop = some (.ok (m', h)) ∧
      Rep m' h .range ((List.range (stop - start).toNat).map (fun k => BitVec.ofInt 64 (start + (k : Nat)))) (stop - start + 1).toNat := by
  obtain ⟨m0, e0, R0, l0, f0⟩ := arrays_rep cpus [] m []
  have i4 : inInt (stop - start) := by unfold inInt at *; omega
  obtain ⟨m1, d, e1, R1, hd, l1, f1⟩ := grow_any R0 mv (stop - start + 1).toNat (by simp)
  obtain ⟨m2, c2, e2, R2, p2, l2, f2, k2⟩ := rangeLoop_ok (mvs := mvs) (stop := stop) (steps := 1) (stop - start).toNat fuel start hfuel R1
    (by decide) (by omega) (fun j hj => by omega) (by omega)
    (fun j hj => by unfold inInt at *; omega) (by left; simp)
  simp only [List.nil_append, Int.one_mul] at R2
  obtain ⟨m3, e3, R3, l3, f3⟩ := setKind_rep R2 .range
  refine ⟨m3, d, ?_, by rw [k2 (by simp)] at R3; exact R3⟩
  have hn : ¬ (stop - start + 1 < 0) := by omega
  simp [range, e0, i3, i4, hn, e1, e2, e3]

/-- C05 for `range`: exactly start, start+1, ..., stop-1 in order, for every allocator. -/
theorem range_contents (cpus : Nat) (m : Heap) (start stop : Int) (mvs : List Bool) (mv : Bool) (fuel : Nat)
    (le : start ≤ stop) (hfuel : (stop - start).toNat < fuel)
    (i1 : inInt start) (i2 : inInt stop) (i3 : inInt (stop - start + 1)) :
    ∃ m' h, range cpus mvs mv fuel m start stop = some (.ok (m', h)) ∧
      contents m' h = .ok ((List.range (stop - start).toNat).map (fun k => BitVec.ofInt 64 (start + (k : Nat)))) ∧
      kindOf m' h = .ok .range := by
  obtain ⟨m', h, e, R⟩ := range_rep cpus m start stop mvs mv fuel le hfuel i1 i2 i3
  exact ⟨m', h, e, contents_of_rep R, kindOf_of_rep R⟩

example : (10 : Int) ≤ 15 ∧ inInt 10 ∧ inInt 15 ∧ inInt (15 - 10 + 1) := by decide

theorem rangeChar_rep (cpus : Nat) (m : Heap) (text : List UInt8) (mvs : List Bool) (mv : Bool) :
    ∃ m' h, rangeChar cpus mvs mv m text = .ok (m', h) ∧
      Rep m' h .rangeChar (text.map (fun c => c.toBitVec.signExtend 64)) (text.length + 1) := by
  obtain ⟨m0, e0, R0, l0, f0⟩ := arrays_rep cpus [] m []
  obtain ⟨m1, d, e1, R1, hd, l1, f1⟩ := grow_any R0 mv (text.length + 1) (by simp)
  obtain ⟨m2, e2, R2, l2, f2⟩ := appendAll_room (vs := text.map (fun c => c.toBitVec.signExtend 64)) (mvs := mvs) R1
    (by decide) (by simp)
  obtain ⟨m3, e3, R3, l3, f3⟩ := setKind_rep R2 .rangeChar
  refine ⟨m3, d, ?_, by simpa using R3⟩
  simp [rangeChar, e0, e1, e2, e3]

/-- C05 for `range_char`: the bytes of the text in order (as sign-extended `char`), for every allocator. -/
theorem rangeChar_contents (cpus : Nat) (m : Heap) (text : List UInt8) (mvs : List Bool) (mv : Bool) :
    ∃ m' h, rangeChar cpus mvs mv m text = .ok (m', h) ∧
      contents m' h = .ok (text.map (fun c => c.toBitVec.signExtend 64)) ∧ kindOf m' h = .ok .rangeChar := by
  obtain ⟨m', h, e, R⟩ := rangeChar_rep cpus m text mvs mv
  exact ⟨m', h, e, contents_of_rep R, kindOf_of_rep R⟩

example : ∃ m' h, rangeChar 1 [] true [] [104, 105] = .ok (m', h) ∧ contents m' h = .ok [104, 105] :=
  ⟨_, _, rfl, by decide⟩

/-! ## C02: the cases in which appending to a library-produced array is safe -/

/-- C02 for `arrays(n, ...)`: the next `$append` adds the value at the end, for every allocator. -/
theorem append_after_arrays (cpus : Nat) (m : Heap) (vs : List Val) (mv0 : List Bool) (mv : Bool) (v : Val) :
    ∃ m0 h m1, arrays cpus mv0 m vs = .ok (m0, h) ∧ dataAppend mv m0 h v = .ok (m1, .unit) ∧
      contents m1 h = .ok (vs ++ [v]) := by
  obtain ⟨m0, e0, R0, _, _⟩ := arrays_rep cpus mv0 m vs
  obtain ⟨m1, e1, R1, _⟩ := append_room R0 (by decide) (initialCap_gt cpus vs.length) mv v
  exact ⟨m0, m.length, m1, e0, e1, contents_of_rep R1⟩

/-- C02 for `$copy` of a non-empty array that is not a tuple, with a `realloc` that keeps the block in place.
Missing from the full claim: empty sources (`append_after_empty_copy_ub`) and a moving `realloc`, with which the value
arrives but the caller's handle is stale (`append_after_copy_moving`). -/
theorem append_after_copy_partial (cpus : Nat) (m : Heap) (src : Handle) (mvs : List Bool) (mv : Bool) (xs : List Val) (k : Kind)
    (hc : contents m src = .ok xs) (hk : kindOf m src = .ok k) (hkt : k ≠ .tuple) (nonempty : xs ≠ [])
    (H : xs.length ≤ queueSize cpus ∨ ∀ b ∈ mvs, b = false) (v : Val) :
    ∃ m' d m'', dataCopy cpus mvs mv m src = .ok (m', d) ∧ dataAppend false m' d v = .ok (m'', .unit) ∧
      contents m'' d = .ok (xs ++ [v]) := by
  obtain ⟨m', d, e, _, R, _, _⟩ := copy_rep cpus m src mvs mv xs k hc hk H
  obtain ⟨m'', e2, R2, _⟩ := append_full R hkt rfl (List.length_pos_iff.2 nonempty) v
  exact ⟨m', d, m'', e, e2, contents_of_rep R2⟩

example : ([5, 6] : List Val) ≠ [] ∧ ([5, 6] : List Val).length ≤ queueSize 4 := by decide

/-- With a moving `realloc` the append to a copy leaves the caller with a handle to freed memory, because a copy
has no spare capacity. -/
theorem append_after_copy_moving (cpus : Nat) (m : Heap) (src : Handle) (mvs : List Bool) (mv : Bool) (xs : List Val) (k : Kind)
    (hc : contents m src = .ok xs) (hk : kindOf m src = .ok k) (hkt : k ≠ .tuple) (nonempty : xs ≠ [])
    (H : xs.length ≤ queueSize cpus ∨ ∀ b ∈ mvs, b = false) (v : Val) :
    ∃ m' d m'', dataCopy cpus mvs mv m src = .ok (m', d) ∧ dataAppend true m' d v = .ok (m'', .unit) ∧
      contents m'' d = .ub := by
  obtain ⟨m', d, e, _, R, _, _⟩ := copy_rep cpus m src mvs mv xs k hc hk H
  obtain ⟨m'', e2, hf⟩ := append_moving_frees R hkt rfl (List.length_pos_iff.2 nonempty) v
  exact ⟨m', d, m'', e, e2, by simp [contents, Heap.load, hf]⟩

/-- C02 for a non-empty `rangeing`, with a `realloc` that keeps the block in place. -/
theorem append_after_rangeing_partial (cpus : Nat) (m : Heap) (start stop steps : Int) (n : Nat) (mvs : List Bool) (mv : Bool)
    (fuel : Nat) (hfuel : n < fuel) (hn : 0 < n)
    (below : ∀ k : Nat, k < n → start + steps * k < stop) (reached : stop ≤ start + steps * n)
    (noOverflow : inInt (stop - start)) (noOverflow' : ∀ k : Nat, k < n → inInt (start + steps * (k + 1)))
    (H : n ≤ queueSize cpus ∨ ∀ b ∈ mvs, b = false) (v : Val) :
    ∃ m' h m'', rangeing cpus mvs mv fuel m start stop steps = some (.ok (m', h)) ∧
      dataAppend false m' h v = .ok (m'', .unit) ∧
      contents m'' h = .ok ((List.range n).map (fun k => BitVec.ofInt 64 (start + steps * (k : Nat))) ++ [v]) := by
  obtain ⟨m', h, e, R⟩ := rangeing_rep cpus m start stop steps n mvs mv fuel hfuel below reached noOverflow noOverflow' H
  obtain ⟨m'', e2, R2, _⟩ := append_full R (by decide) (by simp) hn v
  exact ⟨m', h, m'', e, e2, contents_of_rep R2⟩

/-- C02 for `range`, empty or not, for every allocator: one more element always fits. -/
theorem append_after_range (cpus : Nat) (m : Heap) (start stop : Int) (mvs : List Bool) (mv mv' : Bool) (fuel : Nat)
    (le : start ≤ stop) (hfuel : (stop - start).toNat < fuel)
    (i1 : inInt start) (i2 : inInt stop) (i3 : inInt (stop - start + 1)) (v : Val) :
    ∃ m' h m'', range cpus mvs mv fuel m start stop = some (.ok (m', h)) ∧ dataAppend mv' m' h v = .ok (m'', .unit) ∧
      contents m'' h = .ok ((List.range (stop - start).toNat).map (fun k => BitVec.ofInt 64 (start + (k : Nat))) ++ [v]) := by
  obtain ⟨m', h, e, R⟩ := range_rep cpus m start stop mvs mv fuel le hfuel i1 i2 i3
  obtain ⟨m'', e2, R2, _⟩ := append_room R (by decide) (by simp; omega) mv' v
  exact ⟨m', h, m'', e, e2, contents_of_rep R2⟩

/-- C02 for `range_char`, for every text and allocator. -/
theorem append_after_rangeChar (cpus : Nat) (m : Heap) (text : List UInt8) (mvs : List Bool) (mv mv' : Bool) (v : Val) :
    ∃ m' h m'', rangeChar cpus mvs mv m text = .ok (m', h) ∧ dataAppend mv' m' h v = .ok (m'', .unit) ∧
      contents m'' h = .ok (text.map (fun c => c.toBitVec.signExtend 64) ++ [v]) := by
  obtain ⟨m', h, e, R⟩ := rangeChar_rep cpus m text mvs mv
  obtain ⟨m'', e2, R2, _⟩ := append_room R (by decide) (by simp) mv' v
  exact ⟨m', h, m'', e, e2, contents_of_rep R2⟩

end Verif.Arrays
