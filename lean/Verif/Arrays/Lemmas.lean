import Verif.Arrays.Spec
import Mathlib.Tactic

namespace Verif.Arrays

/-- Representation relation: the block at `h` is live, of kind `k`, holds `xs`, and has capacity `cap`. -/
structure Rep (m : Heap) (h : Handle) (k : Kind) (xs : List Val) (cap : Nat) : Prop where
  ex : ∃ s, m[h]? = some (some ⟨k, xs.length, cap, s⟩) ∧ s.length = cap ∧ s.take xs.length = xs.map some
  le : xs.length ≤ cap

theorem load_of_getElem? {m : Heap} {h b} (e : m[h]? = some (some b)) : m.load h = .ok b := by
  simp [Heap.load, e]

theorem lt_of_get {m : Heap} {h b} (e : m[h]? = some (some b)) : h < m.length := by
  rw [List.getElem?_eq_some_iff] at e; exact e.1

theorem store_get {m : Heap} {h b b'} (e : m[h]? = some (some b)) :
    (m.store h b')[h]? = some (some b') := by
  simp [Heap.store, lt_of_get e]

theorem store_get_ne {m : Heap} {h h' b'} (ne : h' ≠ h) : (m.store h b')[h']? = m[h']? := by
  simp [Heap.store, Ne.symm ne]

theorem store_length {m : Heap} {h b'} : (m.store h b').length = m.length := by
  simp [Heap.store]

theorem take_set_append {s : List (Option Val)} {xs : List Val} {v : Val}
    (ht : s.take xs.length = xs.map some) (hl : xs.length < s.length) :
    (s.set xs.length (some v)).take (xs ++ [v]).length = (xs ++ [v]).map some := by
  rw [List.length_append, List.length_singleton, List.take_add_one]
  simp [List.take_set_of_le, ht, hl]

/-- Append when there is room: in place, whatever the oracle. -/
theorem append_room {m : Heap} {h k xs cap} (R : Rep m h k xs cap) (hk : k ≠ .tuple)
    (room : xs.length < cap) (mv : Bool) (v : Val) :
    ∃ m', dataAppend mv m h v = .ok (m', .unit) ∧ Rep m' h k (xs ++ [v]) cap ∧
      m'.length = m.length ∧ ∀ h', h' ≠ h → m'[h']? = m[h']? := by
  obtain ⟨⟨s, e, sl, st⟩, le⟩ := R
  refine ⟨m.store h ⟨k, xs.length + 1, cap, s.set xs.length (some v)⟩, ?_, ?_, store_length, fun _ ne => store_get_ne ne⟩
  · have : ¬ cap ≤ xs.length := by omega
    simp [dataAppend, load_of_getElem? e, hk, this, Block.write, sl, room]
  · refine ⟨⟨s.set xs.length (some v), ?_, by simpa using sl, take_set_append st (by omega)⟩, by simpa using room⟩
    rw [store_get e]; simp

theorem resize_length {s n} : (resize s n).length = n := by
  simp [resize]; omega

theorem resize_take {s : List (Option Val)} {xs : List Val} {n}
    (ht : s.take xs.length = xs.map some) (h1 : xs.length ≤ n) :
    (resize s n).take xs.length = xs.map some := by
  have hl : xs.length ≤ s.length := by
    have := congrArg List.length ht; simp at this; omega
  rw [resize, List.take_append_of_le_length (by simp; omega), List.take_take, Nat.min_eq_left h1, ht]

theorem grow_inplace {m : Heap} {h k xs cap} (R : Rep m h k xs cap) (n : Nat) (hn : xs.length ≤ n) :
    ∃ m', grow false m h n = .ok (m', h) ∧ Rep m' h k xs n ∧
      m'.length = m.length ∧ ∀ h', h' ≠ h → m'[h']? = m[h']? := by
  obtain ⟨⟨s, e, sl, st⟩, le⟩ := R
  refine ⟨m.store h ⟨k, xs.length, n, resize s n⟩, ?_, ?_, store_length, fun _ ne => store_get_ne ne⟩
  · simp [grow, load_of_getElem? e]
  · exact ⟨⟨resize s n, store_get e, resize_length, resize_take st hn⟩, hn⟩

theorem grow_move {m : Heap} {h k xs cap} (R : Rep m h k xs cap) (n : Nat) (hn : xs.length ≤ n) :
    ∃ m', grow true m h n = .ok (m', m.length) ∧ Rep m' m.length k xs n ∧ m'[h]? = some none ∧
      m'.length = m.length + 1 ∧ ∀ h', h' ≠ h → h' < m.length → m'[h']? = m[h']? := by
  obtain ⟨⟨s, e, sl, st⟩, le⟩ := R
  have hlt := lt_of_get e
  refine ⟨(m.set h none) ++ [some ⟨k, xs.length, n, resize s n⟩], ?_, ?_, ?_, ?_, ?_⟩
  · simp [grow, load_of_getElem? e]
  · exact ⟨⟨resize s n, by simp, resize_length, resize_take st hn⟩, hn⟩
  · rw [List.getElem?_append_left (by simpa using hlt)]; simp [hlt]
  · simp
  · intro h' ne lt
    rw [List.getElem?_append_left (by simpa using lt)]; simp [Ne.symm ne]

/-- Whatever the oracle, `grow` gives a representation at the new handle. -/
theorem grow_any {m : Heap} {h k xs cap} (R : Rep m h k xs cap) (mv : Bool) (n : Nat) (hn : xs.length ≤ n) :
    ∃ m' h', grow mv m h n = .ok (m', h') ∧ Rep m' h' k xs n ∧ (h' = h ∨ h' = m.length) ∧
      m.length ≤ m'.length ∧ ∀ a, a ≠ h → a < m.length → m'[a]? = m[a]? := by
  cases mv
  · obtain ⟨m', e, r, l, f⟩ := grow_inplace R n hn
    exact ⟨m', h, e, r, .inl rfl, l.ge, fun a ne _ => f a ne⟩
  · obtain ⟨m', e, r, _, l, f⟩ := grow_move R n hn
    exact ⟨m', m.length, e, r, .inr rfl, by omega, f⟩

/-- Append to a full array with an in-place realloc. -/
theorem append_full {m : Heap} {h k xs cap} (R : Rep m h k xs cap) (hk : k ≠ .tuple)
    (full : xs.length = cap) (pos : 0 < cap) (v : Val) :
    ∃ m', dataAppend false m h v = .ok (m', .unit) ∧ Rep m' h k (xs ++ [v]) (cap * 2) ∧
      m'.length = m.length ∧ ∀ h', h' ≠ h → m'[h']? = m[h']? := by
  have hload : ∃ s, m.load h = .ok ⟨k, xs.length, cap, s⟩ := by
    obtain ⟨⟨s, e, _, _⟩, _⟩ := R; exact ⟨s, load_of_getElem? e⟩
  obtain ⟨s, hl⟩ := hload
  obtain ⟨m1, eg, R1, l1, f1⟩ := grow_inplace R (cap * 2) (by omega)
  obtain ⟨⟨s1, e1, sl1, st1⟩, le1⟩ := R1
  refine ⟨m1.store h ⟨k, xs.length + 1, cap * 2, s1.set xs.length (some v)⟩, ?_, ?_, ?_, ?_⟩
  · have : cap ≤ xs.length := by omega
    have lt : xs.length < cap * 2 := by omega
    simp [dataAppend, hl, hk, this, eg, load_of_getElem? e1, Block.write, sl1, lt]
  · refine ⟨⟨s1.set xs.length (some v), ?_, by simpa using sl1, take_set_append st1 (by omega)⟩, by simp; omega⟩
    rw [store_get e1]; simp
  · rw [store_length, l1]
  · intro h' ne; rw [store_get_ne ne, f1 _ ne]

theorem memmoveDown_ok {s : List (Option Val)} {xs : List Val} {i : Nat}
    (ht : s.take xs.length = xs.map some) (hl : xs.length ≤ s.length) (hi : i < xs.length) :
    ∃ s', memmoveDown s i (xs.length - 1 - i) = .ok s' ∧ s'.length = s.length ∧
      s'.take (xs.eraseIdx i).length = (xs.eraseIdx i).map some := by
  have hb : i + 1 + (xs.length - 1 - i) ≤ s.length := by omega
  refine ⟨_, by unfold memmoveDown; rw [if_pos hb], ?_, ?_⟩
  · simp; omega
  · have e1 : (xs.eraseIdx i).length = xs.length - 1 := by
      rw [List.length_eraseIdx]; simp [hi]
    have lt : s.take i = (xs.take i).map some := by
      have := congrArg (List.take i) ht
      rwa [List.take_take, Nat.min_eq_left (by omega), ← List.map_take] at this
    have ld : (s.drop (i+1)).take (xs.length - 1 - i) = (xs.drop (i+1)).map some := by
      have := congrArg (List.drop (i+1)) ht
      rw [List.drop_take, ← List.map_drop] at this
      rw [← this]; congr 1; omega
    rw [e1, lt, ld]
    rw [List.take_append_of_le_length (by simp; omega), List.take_of_length_le (by simp; omega)]
    rw [List.eraseIdx_eq_take_drop_succ, List.map_append]

/-- `data_remove` of an index in range. -/
theorem remove_ok {m : Heap} {h k xs cap} (R : Rep m h k xs cap) (hk : k ≠ .tuple) (i : Nat) :
    ∃ m', dataRemove m h i = .ok (m', .unit) ∧ Rep m' h k (xs.eraseIdx i) cap ∧
      m'.length = m.length ∧ ∀ h', h' ≠ h → m'[h']? = m[h']? := by
  obtain ⟨⟨s, e, sl, st⟩, le⟩ := R
  by_cases hi : i < xs.length
  · obtain ⟨s', es, sl', st'⟩ := memmoveDown_ok st (by omega) hi
    have e1 : (xs.eraseIdx i).length = xs.length - 1 := by
      rw [List.length_eraseIdx]; simp [hi]
    refine ⟨m.store h ⟨k, xs.length - 1, cap, s'⟩, ?_, ?_, store_length, fun _ ne => store_get_ne ne⟩
    · simp [dataRemove, load_of_getElem? e, hk, hi, es]
    · exact ⟨⟨s', by rw [store_get e, e1], by omega, st'⟩, by omega⟩
  · refine ⟨m, ?_, ?_, rfl, fun _ _ => rfl⟩
    · simp [dataRemove, load_of_getElem? e, hk, hi]
    · rw [List.eraseIdx_of_length_le (by omega)]
      exact ⟨⟨s, e, sl, st⟩, le⟩

theorem read_ok {s : List (Option Val)} {xs : List Val} {i k n cap}
    (ht : s.take xs.length = xs.map some) (hi : i < xs.length) :
    (Block.read ⟨k, n, cap, s⟩ i) = .ok xs[i] := by
  have : s[i]? = some (some xs[i]) := by
    have := congrArg (·[i]?) ht
    simpa [hi, List.getElem?_take] using this
  simp [Block.read, this]

/-- One step of a non-tuple array follows the list specification; everything else in memory is untouched. -/
theorem step_ok {m : Heap} {h k xs cap} (R : Rep m h k xs cap) (hk : k ≠ .tuple) (pos : 0 < cap)
    {op xs' o} (sp : specStep xs op = some (xs', o)) (mv : Bool)
    (ok : mv = true → xs'.length ≤ cap) :
    ∃ m' cap', step mv m h op = .ok (m', o) ∧ Rep m' h k xs' cap' ∧ cap ≤ cap' ∧
      m'.length = m.length ∧ (∀ h', h' ≠ h → m'[h']? = m[h']?) ∧ (xs'.length ≤ cap → cap' = cap) := by
  cases op with
  | append v =>
    simp only [specStep, Option.some.injEq, Prod.mk.injEq] at sp
    obtain ⟨rfl, rfl⟩ := sp
    by_cases room : xs.length < cap
    · obtain ⟨m', e, r, l, f⟩ := append_room R hk room mv v
      exact ⟨m', cap, e, r, le_rfl, l, f, fun _ => rfl⟩
    · have full : xs.length = cap := by have := R.le; omega
      have : mv = false := by
        cases mv
        · rfl
        · have := ok rfl; simp at this; omega
      subst this
      obtain ⟨m', e, r, l, f⟩ := append_full R hk full pos v
      exact ⟨m', cap * 2, e, r, by omega, l, f, by simp; omega⟩
  | pop =>
    simp only [specStep, Option.some.injEq, Prod.mk.injEq] at sp
    obtain ⟨rfl, rfl⟩ := sp
    have R0 := R
    obtain ⟨⟨s, e, sl, st⟩, le⟩ := R
    by_cases hz : xs.length = 0
    · have : xs = [] := List.length_eq_zero_iff.mp hz
      subst this
      exact ⟨m, cap, by simp [step, dataPop, load_of_getElem? e, hk], R0, le_rfl, rfl, fun _ _ => rfl, fun _ => rfl⟩
    · obtain ⟨m', er, r, l, f⟩ := remove_ok R0 hk (xs.length - 1)
      have ed : xs.eraseIdx (xs.length - 1) = xs.dropLast := by
        rw [List.eraseIdx_length_sub_one]
      rw [ed] at r
      refine ⟨m', cap, ?_, r, le_rfl, l, f, fun _ => rfl⟩
      have hp : 0 < xs.length := by omega
      have hne : xs ≠ [] := by intro c; simp [c] at hz
      simp [step, dataPop, load_of_getElem? e, hk, hp, read_ok st (show xs.length - 1 < xs.length by omega), er,
        List.getLastD_eq_getLast?, List.getLast?_eq_getElem?, show xs.length - 1 < xs.length by omega]
  | shift =>
    simp only [specStep, Option.some.injEq, Prod.mk.injEq] at sp
    obtain ⟨rfl, rfl⟩ := sp
    have R0 := R
    obtain ⟨⟨s, e, sl, st⟩, le⟩ := R
    cases xs with
    | nil =>
      exact ⟨m, cap, by simp [step, dataShift, load_of_getElem? e, hk], R0, le_rfl, rfl, fun _ _ => rfl, fun _ => rfl⟩
    | cons x xs =>
      obtain ⟨m', er, r, l, f⟩ := remove_ok R0 hk 0
      refine ⟨m', cap, ?_, by simpa using r, le_rfl, l, f, fun _ => rfl⟩
      have := read_ok (k := k) (n := (x :: xs).length) (cap := cap) st (i := 0) (by simp)
      simp only [List.length_cons, List.getElem_cons_zero] at this
      simp [step, dataShift, load_of_getElem? e, hk, this, er]
  | remove i =>
    simp only [specStep, Option.some.injEq, Prod.mk.injEq] at sp
    obtain ⟨rfl, rfl⟩ := sp
    obtain ⟨m', er, r, l, f⟩ := remove_ok R hk i
    exact ⟨m', cap, er, r, le_rfl, l, f, fun _ => rfl⟩
  | reset =>
    simp only [specStep, Option.some.injEq, Prod.mk.injEq] at sp
    obtain ⟨rfl, rfl⟩ := sp
    obtain ⟨⟨s, e, sl, st⟩, le⟩ := R
    refine ⟨m.store h ⟨k, 0, cap, s⟩, cap, ?_, ?_, le_rfl, store_length, fun _ ne => store_get_ne ne, fun _ => rfl⟩
    · simp [step, dataReset, load_of_getElem? e, hk]
    · exact ⟨⟨s, by rw [store_get e]; simp, sl, by simp⟩, by simp⟩
  | get i =>
    simp only [specStep, Option.map_eq_some_iff, Prod.mk.injEq] at sp
    obtain ⟨v, hv, rfl, rfl⟩ := sp
    have R0 := R
    obtain ⟨⟨s, e, sl, st⟩, le⟩ := R
    rw [List.getElem?_eq_some_iff] at hv
    obtain ⟨hi, rfl⟩ := hv
    exact ⟨m, cap, by simp [step, index, load_of_getElem? e, read_ok st hi], R0, le_rfl, rfl, fun _ _ => rfl, fun _ => rfl⟩
  | size =>
    simp only [specStep, Option.some.injEq, Prod.mk.injEq] at sp
    obtain ⟨rfl, rfl⟩ := sp
    have R0 := R
    obtain ⟨⟨s, e, sl, st⟩, le⟩ := R
    exact ⟨m, cap, by simp [step, dataSize, load_of_getElem? e], R0, le_rfl, rfl, fun _ _ => rfl, fun _ => rfl⟩

end Verif.Arrays

namespace Verif.Arrays

theorem contents_of_rep {m : Heap} {h k xs cap} (R : Rep m h k xs cap) : contents m h = .ok xs := by
  obtain ⟨⟨s, e, sl, st⟩, le⟩ := R
  simp only [contents, load_of_getElem? e, Res.ok_bind]
  rw [Res.mapM_ok (g := fun i => xs[i]?.getD 0)]
  · congr 1
    apply List.ext_getElem <;> simp
    intro i h1
    rw [List.getElem?_eq_getElem h1]; rfl
  · intro i hi
    have hi : i < xs.length := by simpa using hi
    rw [read_ok st hi]; simp [hi]

theorem kindOf_of_rep {m : Heap} {h k xs cap} (R : Rep m h k xs cap) : kindOf m h = .ok k := by
  obtain ⟨⟨s, e, sl, st⟩, le⟩ := R
  simp [kindOf, load_of_getElem? e]

theorem rep_congr {m m' : Heap} {h k xs cap} (R : Rep m h k xs cap) (e : m'[h]? = m[h]?) :
    Rep m' h k xs cap := by
  obtain ⟨⟨s, e', sl, st⟩, le⟩ := R
  exact ⟨⟨s, e.trans e', sl, st⟩, le⟩

/-- A whole history follows the list, provided no realloc that happens moves the block. -/
theorem run_inplace {ops : List Op} : ∀ {m : Heap} {h k xs cap mvs xs' outs}, Rep m h k xs cap → k ≠ .tuple →
    0 < cap → (∀ b ∈ mvs, b = false) → specRun xs ops = some (xs', outs) →
    ∃ m' cap', run mvs m h ops = .ok (m', outs) ∧ Rep m' h k xs' cap' ∧ cap ≤ cap' := by
  induction ops with
  | nil =>
    intro m h k xs cap mvs xs' outs R _ _ _ sp
    simp [specRun] at sp
    obtain ⟨rfl, rfl⟩ := sp
    exact ⟨m, cap, rfl, R, le_rfl⟩
  | cons op ops ih =>
    intro m h k xs cap mvs xs' outs R hk pos hm sp
    simp only [specRun, Option.bind_eq_bind, Option.bind_eq_some_iff, Option.pure_def, Option.some.injEq,
      Prod.mk.injEq, Prod.exists] at sp
    obtain ⟨x1, o1, s1, x2, o2, s2, rfl, rfl⟩ := sp
    have hf : mvs.headD false = false := by cases mvs with
      | nil => rfl
      | cons b l => exact hm b (by simp)
    obtain ⟨m1, c1, e1, R1, le1, _⟩ := step_ok R hk pos s1 (mvs.headD false) (by rw [hf]; simp)
    obtain ⟨m2, c2, e2, R2, le2⟩ := ih R1 hk (by omega) (fun b hb => hm b (List.mem_of_mem_tail hb)) s2
    refine ⟨m2, c2, ?_, R2, by omega⟩
    simp only [run, e1, e2, Res.ok_bind, Res.pure_eq]

/-- A whole history follows the list for every allocator, while it stays within the capacity. -/
theorem run_room {ops : List Op} : ∀ {m : Heap} {h k xs cap mvs xs' outs}, Rep m h k xs cap → k ≠ .tuple →
    0 < cap → peak xs ops ≤ cap → specRun xs ops = some (xs', outs) →
    ∃ m', run mvs m h ops = .ok (m', outs) ∧ Rep m' h k xs' cap := by
  induction ops with
  | nil =>
    intro m h k xs cap mvs xs' outs R _ _ _ sp
    simp [specRun] at sp
    obtain ⟨rfl, rfl⟩ := sp
    exact ⟨m, rfl, R⟩
  | cons op ops ih =>
    intro m h k xs cap mvs xs' outs R hk pos hp sp
    simp only [specRun, Option.bind_eq_bind, Option.bind_eq_some_iff, Option.pure_def, Option.some.injEq,
      Prod.mk.injEq, Prod.exists] at sp
    obtain ⟨x1, o1, s1, x2, o2, s2, rfl, rfl⟩ := sp
    simp only [peak, s1] at hp
    have hx1 : x1.length ≤ cap := by
      have : x1.length ≤ peak x1 ops := by
        cases ops with
        | nil => simp [peak]
        | cons a l => simp only [peak]; split <;> simp
      omega
    obtain ⟨m1, c1, e1, R1, le1, _, _, hc⟩ := step_ok R hk pos s1 (mvs.headD false) (fun _ => hx1)
    have := hc hx1
    subst this
    obtain ⟨m2, e2, R2⟩ := ih (mvs := mvs.tail) R1 hk pos (by omega) s2
    refine ⟨m2, ?_, R2⟩
    simp only [run, e1, e2, Res.ok_bind, Res.pure_eq]

theorem queueSize_pos (c : Nat) : 0 < queueSize c := by
  unfold queueSize; rw [Nat.shiftLeft_eq]; positivity

theorem initialCap_gt (c n : Nat) : n < initialCap c n := by
  unfold initialCap alignUp2
  split
  · subst_vars; exact queueSize_pos c
  · omega

theorem growNew_rep (m : Heap) (n : Nat) :
    Rep (growNew m n).1 m.length .array [] n ∧ (growNew m n).2 = m.length ∧
    (growNew m n).1.length = m.length + 1 ∧ ∀ a, a < m.length → (growNew m n).1[a]? = m[a]? := by
  refine ⟨⟨⟨List.replicate n none, by simp [growNew], by simp, by simp⟩, by simp⟩, rfl, by simp [growNew], ?_⟩
  intro a ha
  simp [growNew, List.getElem?_append_left ha]

/-- Appends that never need to grow, for every allocator. -/
theorem appendAll_room {vs : List Val} : ∀ {m : Heap} {h k xs cap mvs}, Rep m h k xs cap → k ≠ .tuple →
    xs.length + vs.length ≤ cap →
    ∃ m', appendAll mvs m h vs = .ok m' ∧ Rep m' h k (xs ++ vs) cap ∧ m'.length = m.length ∧
      ∀ a, a ≠ h → m'[a]? = m[a]? := by
  induction vs with
  | nil => intro m h k xs cap mvs R _ _; exact ⟨m, rfl, by simpa using R, rfl, fun _ _ => rfl⟩
  | cons v vs ih =>
    intro m h k xs cap mvs R hk hl
    simp at hl
    obtain ⟨m1, e1, R1, l1, f1⟩ := append_room R hk (by omega) (mvs.headD false) v
    obtain ⟨m2, e2, R2, l2, f2⟩ := ih (mvs := mvs.tail) R1 hk (by simp; omega)
    refine ⟨m2, by simp only [appendAll, e1, e2, Res.ok_bind], by simpa using R2, by omega, fun a ha => ?_⟩
    rw [f2 a ha, f1 a ha]

/-- Appends with an allocator that never moves. -/
theorem appendAll_inplace {vs : List Val} : ∀ {m : Heap} {h k xs cap mvs}, Rep m h k xs cap → k ≠ .tuple →
    0 < cap → (∀ b ∈ mvs, b = false) →
    ∃ m' cap', appendAll mvs m h vs = .ok m' ∧ Rep m' h k (xs ++ vs) cap' ∧ cap ≤ cap' ∧ m'.length = m.length ∧
      ∀ a, a ≠ h → m'[a]? = m[a]? := by
  induction vs with
  | nil => intro m h k xs cap mvs R _ _ _; exact ⟨m, cap, rfl, by simpa using R, le_rfl, rfl, fun _ _ => rfl⟩
  | cons v vs ih =>
    intro m h k xs cap mvs R hk pos hm
    have hf : mvs.headD false = false := by cases mvs with
      | nil => rfl
      | cons b l => exact hm b (by simp)
    obtain ⟨m1, c1, e1, R1, le1, l1, f1, _⟩ := step_ok R hk pos (op := .append v) rfl (mvs.headD false) (by rw [hf]; simp)
    simp only [step] at e1
    obtain ⟨m2, c2, e2, R2, le2, l2, f2⟩ := ih (mvs := mvs.tail) R1 hk (by omega) (fun b hb => hm b (List.mem_of_mem_tail hb))
    refine ⟨m2, c2, by simp only [appendAll, e1, e2, Res.ok_bind], by simpa using R2, by omega, by omega, fun a ha => ?_⟩
    rw [f2 a ha, f1 a ha]

theorem setKind_rep {m : Heap} {h k xs cap} (R : Rep m h k xs cap) (k' : Kind) :
    ∃ m', setKind m h k' = .ok m' ∧ Rep m' h k' xs cap ∧ m'.length = m.length ∧ ∀ a, a ≠ h → m'[a]? = m[a]? := by
  obtain ⟨⟨s, e, sl, st⟩, le⟩ := R
  exact ⟨m.store h ⟨k', xs.length, cap, s⟩, by simp [setKind, load_of_getElem? e],
    ⟨⟨s, store_get e, sl, st⟩, le⟩, store_length, fun _ ne => store_get_ne ne⟩

/-- `arrays(n, ...)` yields the given list at a fresh address, for every allocator. -/
theorem arrays_rep (cpus : Nat) (mvs : List Bool) (m : Heap) (vs : List Val) :
    ∃ m', arrays cpus mvs m vs = .ok (m', m.length) ∧
      Rep m' m.length .array vs (initialCap cpus vs.length) ∧ m'.length = m.length + 1 ∧
      ∀ a, a < m.length → m'[a]? = m[a]? := by
  obtain ⟨R0, eh, l0, f0⟩ := growNew_rep m (initialCap cpus vs.length)
  obtain ⟨m1, e1, R1, l1, f1⟩ := appendAll_room (vs := vs) (mvs := mvs) R0 (by decide)
    (by have := initialCap_gt cpus vs.length; simp; omega)
  obtain ⟨m2, e2, R2, l2, f2⟩ := setKind_rep R1 .array
  refine ⟨m2, ?_, by simpa using R2, by omega, fun a ha => ?_⟩
  · simp [arrays, eh, e1, e2]
  · rw [f2 a (Nat.ne_of_lt ha), f1 a (Nat.ne_of_lt ha), f0 a ha]

/-- From what the caller can read back we can reconstruct the block (without its capacity). -/
theorem block_of_contents {m : Heap} {h : Handle} {xs : List Val} {k : Kind}
    (hc : contents m h = .ok xs) (hk : kindOf m h = .ok k) :
    ∃ c s, m[h]? = some (some ⟨k, xs.length, c, s⟩) ∧ ∀ i (hi : i < xs.length), Block.read ⟨k, xs.length, c, s⟩ i = .ok xs[i] := by
  simp only [contents, kindOf, Res.bind_eq_ok] at hc hk
  obtain ⟨b, hb, hm⟩ := hc
  obtain ⟨b', hb', hk⟩ := hk
  have hbb : b = b' := by rw [hb] at hb'; simpa using hb'
  subst hbb
  simp at hk
  have hget : m[h]? = some (some b) := by
    unfold Heap.load at hb
    split at hb
    · next e => simp at hb; rw [e, hb]
    · simp at hb
  have key : ∀ (l : List Nat) (ys : List Val), l.mapM (fun i => b.read i) = .ok ys →
      l.length = ys.length ∧ ∀ j (hj : j < l.length) (hy : j < ys.length), b.read l[j] = .ok ys[j] := by
    intro l
    induction l with
    | nil => intro ys h; simp at h; subst h; simp
    | cons a l ih =>
      intro ys h
      rw [List.mapM_cons] at h
      simp only [Res.bind_eq_ok] at h
      obtain ⟨v, hv, vs, hvs, e⟩ := h
      simp at e; subst e
      obtain ⟨hl, hr⟩ := ih vs hvs
      refine ⟨by simp [hl], ?_⟩
      intro j hj hy
      cases j with
      | zero => simpa using hv
      | succ j => simpa using hr j (by simpa using hj) (by simpa using hy)
  obtain ⟨hl, hr⟩ := key _ _ hm
  simp at hl
  refine ⟨b.cap, b.slots, ?_, ?_⟩
  · rw [hget, ← hl, ← hk]
  · intro i hi
    have := hr i (by simp; omega) hi
    simp only [List.getElem_range] at this
    rw [← this]; rfl

end Verif.Arrays

namespace Verif.Arrays

theorem get_of_load {m : Heap} {h : Handle} {b : Block} (hb : m.load h = .ok b) : m[h]? = some (some b) := by
  unfold Heap.load at hb
  split at hb
  · next e => simp at hb; rw [e, hb]
  · simp at hb

theorem headD_false {mvs : List Bool} (hm : ∀ b ∈ mvs, b = false) : mvs.headD false = false := by
  cases mvs with
  | nil => rfl
  | cons b l => exact hm b (by simp)

/-- The copy loop of `data_copy`. -/
theorem copyLoop_ok {src des : Handle} {ys : List Val} {ks : Kind} {c : Nat} {s : List (Option Val)} (hne : des ≠ src)
    (hread : ∀ i (hi : i < ys.length), Block.read ⟨ks, ys.length, c, s⟩ i = .ok ys[i]) :
    ∀ (n i : Nat) {m : Heap} {k xs cap mvs}, Rep m des k xs cap → k ≠ .tuple → 0 < cap →
    m[src]? = some (some ⟨ks, ys.length, c, s⟩) → i + n = ys.length →
    (xs.length + n ≤ cap ∨ ∀ b ∈ mvs, b = false) →
    ∃ m' cap', copyLoop mvs m des src i n = .ok m' ∧ Rep m' des k (xs ++ ys.drop i) cap' ∧ 0 < cap' ∧
      m'.length = m.length ∧ ∀ a, a ≠ des → m'[a]? = m[a]? := by
  intro n
  induction n with
  | zero =>
    intro i m k xs cap mvs R _ pos _ hi _
    refine ⟨m, cap, rfl, ?_, pos, rfl, fun _ _ => rfl⟩
    rw [List.drop_of_length_le (by omega)]; simpa using R
  | succ n ih =>
    intro i m k xs cap mvs R hk pos hs hi H
    have hi' : i < ys.length := by omega
    have hcond : mvs.headD false = true → (xs ++ [ys[i]]).length ≤ cap := by
      intro ht
      rcases H with H | H
      · simp; omega
      · rw [headD_false H] at ht; simp at ht
    obtain ⟨m1, c1, e1, R1, le1, l1, f1, hc⟩ :=
      step_ok R hk pos (op := .append ys[i]) rfl (mvs.headD false) hcond
    simp only [step] at e1
    have H' : (xs ++ [ys[i]]).length + n ≤ c1 ∨ ∀ b ∈ mvs.tail, b = false := by
      rcases H with H | H
      · left; simp; omega
      · right; exact fun b hb => H b (List.mem_of_mem_tail hb)
    obtain ⟨m2, c2, e2, R2, p2, l2, f2⟩ := ih (i + 1) (mvs := mvs.tail) R1 hk (by omega)
      (by rw [f1 _ (Ne.symm hne)]; exact hs) (by omega) H'
    refine ⟨m2, c2, ?_, ?_, p2, by omega, fun a ha => by rw [f2 a ha, f1 a ha]⟩
    · simp only [copyLoop, load_of_getElem? hs, Res.ok_bind, hi', if_true, hread i hi', e1, e2]
    · rw [List.drop_eq_getElem_cons hi']
      simpa using R2

/-- The counting loop shared by `range` and `rangeing`. -/
theorem rangeLoop_ok {stop steps : Int} {h : Handle} :
    ∀ (n : Nat) (fuel : Nat) {m : Heap} {k xs cap mvs} (i : Int), n < fuel → Rep m h k xs cap → k ≠ .tuple → 0 < cap →
    (∀ j : Nat, j < n → i + steps * j < stop) → ¬ (i + steps * n < stop) →
    (∀ j : Nat, j < n → inInt (i + steps * (j + 1))) →
    (xs.length + n ≤ cap ∨ ∀ b ∈ mvs, b = false) →
    ∃ m' cap', rangeLoop mvs stop steps h fuel m i = some (.ok m') ∧
      Rep m' h k (xs ++ (List.range n).map (fun j => BitVec.ofInt 64 (i + steps * (j : Nat)))) cap' ∧
      0 < cap' ∧ m'.length = m.length ∧ (∀ a, a ≠ h → m'[a]? = m[a]?) ∧ (xs.length + n ≤ cap → cap' = cap) := by
  intro n
  induction n with
  | zero =>
    intro fuel m k xs cap mvs i hf R hk pos _ hstop _ _
    obtain ⟨fuel, rfl⟩ : ∃ f, fuel = f + 1 := ⟨fuel - 1, by omega⟩
    refine ⟨m, cap, ?_, by simpa using R, pos, rfl, fun _ _ => rfl, fun _ => rfl⟩
    simp at hstop
    simp [rangeLoop, Int.not_lt.mpr hstop]
  | succ n ih =>
    intro fuel m k xs cap mvs i hf R hk pos hlt hstop hint H
    obtain ⟨fuel, rfl⟩ : ∃ f, fuel = f + 1 := ⟨fuel - 1, by omega⟩
    have h0 : i < stop := by simpa using hlt 0 (by omega)
    have hi0 : inInt (i + steps) := by simpa using hint 0 (by omega)
    have hcond : mvs.headD false = true → (xs ++ [BitVec.ofInt 64 i]).length ≤ cap := by
      intro ht
      rcases H with H | H
      · simp; omega
      · rw [headD_false H] at ht; simp at ht
    obtain ⟨m1, c1, e1, R1, le1, l1, f1, hc⟩ :=
      step_ok R hk pos (op := .append (BitVec.ofInt 64 i)) rfl (mvs.headD false) hcond
    simp only [step] at e1
    have H' : (xs ++ [BitVec.ofInt 64 i]).length + n ≤ c1 ∨ ∀ b ∈ mvs.tail, b = false := by
      rcases H with H | H
      · left; simp; omega
      · right; exact fun b hb => H b (List.mem_of_mem_tail hb)
    have shift : ∀ j : Nat, i + steps + steps * (j : Int) = i + steps * ((j + 1 : Nat) : Int) := by
      intro j; push_cast; ring
    obtain ⟨m2, c2, e2, R2, p2, l2, f2, k2⟩ := ih fuel (mvs := mvs.tail) (i + steps) (by omega) R1 hk (by omega)
      (fun j hj => by rw [shift]; exact hlt (j+1) (by omega))
      (by rw [shift]; exact hstop)
      (fun j hj => by
        have := hint (j+1) (by omega)
        have e : i + steps + steps * ((j : Int) + 1) = i + steps * (((j + 1 : Nat) : Int) + 1) := by push_cast; ring
        rw [e]; exact this) H'
    refine ⟨m2, c2, ?_, ?_, p2, by omega, fun a ha => by rw [f2 a ha, f1 a ha], ?_⟩
    rotate_right
    · intro hle
      have h1 : c1 = cap := hc (by simp; omega)
      rw [k2 (by simp; omega), h1]
    · simp only [rangeLoop, h0, if_true, e1, hi0, e2]
    · rw [List.range_succ_eq_map]
      simp only [shift] at R2
      simpa [Function.comp_def] using R2

theorem load_append {m : Heap} {b : Option Block} {a : Handle} (h : a < m.length) :
    (m ++ [b])[a]? = m[a]? := List.getElem?_append_left h

/-- Whatever happens, a successful call through `h` changes no other existing block. -/
theorem step_frame {mv m h op m' o} (e : step mv m h op = .ok (m', o)) :
    m.length ≤ m'.length ∧ ∀ a, a ≠ h → a < m.length → m'[a]? = m[a]? := by
  have hrem : ∀ {m : Heap} {h i m' o}, dataRemove m h i = .ok (m', o) →
      m.length ≤ m'.length ∧ ∀ a, a ≠ h → a < m.length → m'[a]? = m[a]? := by
    intro m h i m' o e
    simp only [dataRemove, Res.bind_eq_ok] at e
    obtain ⟨b, hb, e⟩ := e
    split at e
    · simp at e; obtain ⟨rfl, rfl⟩ := e; exact ⟨le_rfl, fun _ _ _ => rfl⟩
    · simp only [Res.pure_eq, Res.ok_bind] at e
      split at e
      · simp only [Res.bind_eq_ok] at e
        obtain ⟨s, hs, e⟩ := e
        simp at e; obtain ⟨rfl, rfl⟩ := e
        exact ⟨store_length.ge, fun a ne _ => store_get_ne ne⟩
      · simp at e; obtain ⟨rfl, rfl⟩ := e; exact ⟨le_rfl, fun _ _ _ => rfl⟩
  cases op with
  | append v =>
    simp only [step, dataAppend, Res.bind_eq_ok] at e
    obtain ⟨b, hb, e⟩ := e
    split at e
    · simp at e; obtain ⟨rfl, rfl⟩ := e; exact ⟨le_rfl, fun _ _ _ => rfl⟩
    · simp only [Res.pure_eq, Res.ok_bind] at e
      split at e
      · simp only [Res.bind_eq_ok] at e
        obtain ⟨⟨m1, h1⟩, eg, b1, hb1, b2, hb2, e⟩ := e
        simp at e; obtain ⟨rfl, rfl⟩ := e
        simp only [grow, hb, Res.ok_bind] at eg
        cases mv
        · simp at eg; obtain ⟨rfl, rfl⟩ := eg
          refine ⟨by simp [store_length], fun a ne lt => ?_⟩
          rw [store_get_ne ne, store_get_ne ne]
        · simp at eg; obtain ⟨rfl, rfl⟩ := eg
          refine ⟨by simp [store_length], fun a ne lt => ?_⟩
          rw [store_get_ne (Nat.ne_of_lt lt), List.getElem?_append_left (by simpa using lt)]
          simp [Ne.symm ne]
      · simp only [Res.bind_eq_ok] at e
        obtain ⟨b1, hb1, b2, hb2, e⟩ := e
        simp at e; obtain ⟨rfl, rfl⟩ := e
        exact ⟨store_length.ge, fun a ne _ => store_get_ne ne⟩
  | pop =>
    simp only [step, dataPop, Res.bind_eq_ok] at e
    obtain ⟨b, hb, e⟩ := e
    split at e
    · simp at e; obtain ⟨rfl, rfl⟩ := e; exact ⟨le_rfl, fun _ _ _ => rfl⟩
    · simp only [Res.pure_eq, Res.ok_bind] at e
      split at e
      · simp only [Res.bind_eq_ok] at e
        obtain ⟨v, hv, ⟨m1, o1⟩, er, e⟩ := e
        simp at e; obtain ⟨rfl, rfl⟩ := e
        exact hrem er
      · simp at e; obtain ⟨rfl, rfl⟩ := e; exact ⟨le_rfl, fun _ _ _ => rfl⟩
  | shift =>
    simp only [step, dataShift, Res.bind_eq_ok] at e
    obtain ⟨b, hb, e⟩ := e
    split at e
    · simp at e; obtain ⟨rfl, rfl⟩ := e; exact ⟨le_rfl, fun _ _ _ => rfl⟩
    · simp only [Res.pure_eq, Res.ok_bind] at e
      split at e
      · simp only [Res.bind_eq_ok] at e
        obtain ⟨v, hv, ⟨m1, o1⟩, er, e⟩ := e
        simp at e; obtain ⟨rfl, rfl⟩ := e
        exact hrem er
      · simp at e; obtain ⟨rfl, rfl⟩ := e; exact ⟨le_rfl, fun _ _ _ => rfl⟩
  | remove i => exact hrem e
  | reset =>
    simp only [step, dataReset, Res.bind_eq_ok] at e
    obtain ⟨b, hb, e⟩ := e
    split at e
    · simp at e; obtain ⟨rfl, rfl⟩ := e; exact ⟨le_rfl, fun _ _ _ => rfl⟩
    · simp at e; obtain ⟨rfl, rfl⟩ := e
      exact ⟨store_length.ge, fun a ne _ => store_get_ne ne⟩
  | get i =>
    simp only [step, index, Res.bind_eq_ok] at e
    obtain ⟨b, hb, v, hv, e⟩ := e
    simp at e; obtain ⟨rfl, rfl⟩ := e; exact ⟨le_rfl, fun _ _ _ => rfl⟩
  | size =>
    simp only [step, dataSize, Res.bind_eq_ok] at e
    obtain ⟨b, hb, e⟩ := e
    simp at e; obtain ⟨rfl, rfl⟩ := e; exact ⟨le_rfl, fun _ _ _ => rfl⟩

theorem run_frame {ops : List Op} : ∀ {mvs m h m' outs}, run mvs m h ops = .ok (m', outs) →
    m.length ≤ m'.length ∧ ∀ a, a ≠ h → a < m.length → m'[a]? = m[a]? := by
  induction ops with
  | nil => intro mvs m h m' outs e; simp [run] at e; obtain ⟨rfl, rfl⟩ := e; exact ⟨le_rfl, fun _ _ _ => rfl⟩
  | cons op ops ih =>
    intro mvs m h m' outs e
    simp only [run, Res.bind_eq_ok] at e
    obtain ⟨⟨m1, o1⟩, e1, ⟨m2, o2⟩, e2, e⟩ := e
    simp at e; obtain ⟨rfl, rfl⟩ := e
    obtain ⟨l1, f1⟩ := step_frame e1
    obtain ⟨l2, f2⟩ := ih e2
    simp only at l2 f2
    exact ⟨by omega, fun a ne lt => by rw [f2 a ne (Nat.lt_of_lt_of_le lt l1), f1 a ne lt]⟩

theorem contents_congr {m m' : Heap} {h} (e : m'[h]? = m[h]?) : contents m' h = contents m h := by
  simp [contents, Heap.load, e]

theorem kindOf_congr {m m' : Heap} {h} (e : m'[h]? = m[h]?) : kindOf m' h = kindOf m h := by
  simp [kindOf, Heap.load, e]

theorem lt_of_contents {m : Heap} {h xs} (e : contents m h = .ok xs) : h < m.length := by
  simp only [contents, Res.bind_eq_ok] at e
  obtain ⟨b, hb, _⟩ := e
  exact lt_of_get (get_of_load hb)

end Verif.Arrays
