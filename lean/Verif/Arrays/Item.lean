import Verif.Arrays.Props

/-!
# Typed appends: `$append_double` … `$append_short`

The slots are unions (include/arrays.h:101-129); a narrow member occupies the low bytes of the slot (little endian).
-/

namespace Verif.Arrays

/-- The type argument of `data_append_item` (include/arrays.h:252-259). -/
inductive ItemType where
  | double | llong | maxsize | func | short | bool | char | string | object
  deriving DecidableEq, Repr

/-- Width in bits of the union member assigned, src/arrays.c:211-229. -/
def ItemType.bits : ItemType → Nat
  | .short => 16
  | .bool | .char => 8
  | _ => 64

/-- Assigning the low `w` bits of a union leaves the other bits as they were. -/
def merge (w : Nat) (old v : Val) : Val := BitVec.ofNat 64 (old.toNat / 2 ^ w * 2 ^ w + v.toNat % 2 ^ w)

/-- `data_append_item(arr, type, value)`, src/arrays.c:197-232; `v` is the value converted to its type, as raw bits,
and `junk` what an uninitialised slot happens to contain. -/
def dataAppendItem (mv : Bool) (junk : Val) (m : Heap) (h : Handle) (t : ItemType) (v : Val) : Res (Heap × Out) := do
  let b ← m.load h
  if b.kind = .tuple then
    return (m, .threw)
  let index := b.size
  let (m, h) ← if b.cap ≤ index then grow mv m h (b.cap * 2) else pure (m, h)
  let b ← m.load h
  let old := ((b.slots[index]?).getD none).getD junk
  let b ← b.write index (merge t.bits old v)
  return (m.store h { b with size := index + 1 }, .unit)

/-- A sequence of typed appends; `mvs` and `junks` as for single ones. -/
def appendItems (mvs : List Bool) (junks : List Val) (m : Heap) (h : Handle) : List (ItemType × Val) → Res Heap
  | [] => .ok m
  | (t, v) :: its => do
    let (m, _) ← dataAppendItem (mvs.headD false) (junks.headD 0) m h t v
    appendItems mvs.tail junks.tail m h its

/-- Specification: reading a slot through a member of `w` bits. -/
def asBits (w : Nat) (v : Val) : Nat := v.toNat % 2 ^ w

theorem merge_toNat (w : Nat) (old v : Val) (hw : w ≤ 64) :
    (merge w old v).toNat = old.toNat / 2 ^ w * 2 ^ w + v.toNat % 2 ^ w := by
  unfold merge
  rw [BitVec.toNat_ofNat, Nat.mod_eq_of_lt]
  have hp : 0 < 2 ^ w := Nat.pos_of_ne_zero (by positivity)
  have h1 : old.toNat / 2 ^ w < 2 ^ (64 - w) := by
    rw [Nat.div_lt_iff_lt_mul hp, ← pow_add, show 64 - w + w = 64 by omega]
    exact old.isLt
  have h2 : v.toNat % 2 ^ w < 2 ^ w := Nat.mod_lt _ hp
  calc old.toNat / 2 ^ w * 2 ^ w + v.toNat % 2 ^ w < old.toNat / 2 ^ w * 2 ^ w + 2 ^ w := by omega
    _ = (old.toNat / 2 ^ w + 1) * 2 ^ w := by ring
    _ ≤ 2 ^ (64 - w) * 2 ^ w := Nat.mul_le_mul_right _ h1
    _ = 2 ^ 64 := by rw [← pow_add, show 64 - w + w = 64 by omega]

theorem bits_le (t : ItemType) : t.bits ≤ 64 := by cases t <;> decide

theorem merge_low (t : ItemType) (old v : Val) : asBits t.bits (merge t.bits old v) = asBits t.bits v := by
  unfold asBits
  rw [merge_toNat _ _ _ (bits_le t), Nat.mul_add_mod_self_right, Nat.mod_mod]

theorem merge_high (w : Nat) (old v : Val) (hw : w ≤ 64) : (merge w old v).toNat / 2 ^ w = old.toNat / 2 ^ w := by
  rw [merge_toNat _ _ _ hw]
  have hp : 0 < 2 ^ w := Nat.pos_of_ne_zero (by positivity)
  rw [Nat.add_comm, Nat.add_mul_div_right _ _ hp, Nat.div_eq_of_lt (Nat.mod_lt _ hp), Nat.zero_add]

theorem grow_load {mv : Bool} {m m' : Heap} {h h' : Handle} {n : Nat} {b : Block} (hl : m.load h = .ok b)
    (hg : grow mv m h n = .ok (m', h')) : m'.load h' = .ok { b with cap := n, slots := resize b.slots n } := by
  have hlt : h < m.length := by
    cases h0 : m[h]? with
    | none => simp [Heap.load, h0] at hl
    | some x => rw [List.getElem?_eq_some_iff] at h0; exact h0.1
  unfold grow at hg
  rw [hl] at hg
  simp only [Res.ok_bind] at hg
  cases mv
  · simp only [Bool.false_eq_true, if_false, Res.ok.injEq, Prod.mk.injEq] at hg
    obtain ⟨rfl, rfl⟩ := hg
    simp [Heap.load, Heap.store, hlt]
  · simp only [if_true, Res.ok.injEq, Prod.mk.injEq] at hg
    obtain ⟨rfl, rfl⟩ := hg
    simp [Heap.load]

/-- A typed append is an append of some value with the right low bits. -/
theorem item_is_append (mv : Bool) (junk : Val) (m : Heap) (h : Handle) (t : ItemType) (v : Val) :
    ∃ u, asBits t.bits u = asBits t.bits v ∧ dataAppendItem mv junk m h t v = dataAppend mv m h u := by
  unfold dataAppendItem dataAppend
  cases hl : m.load h with
  | ub => exact ⟨v, rfl, rfl⟩
  | ok b =>
    simp only [Res.ok_bind]
    by_cases hk : b.kind = .tuple
    · exact ⟨v, rfl, by simp [hk]⟩
    · simp only [if_neg hk]
      by_cases hc : b.cap ≤ b.size
      · simp only [if_pos hc]
        cases hg : grow mv m h (b.cap * 2) with
        | ub => exact ⟨v, rfl, rfl⟩
        | ok r =>
          obtain ⟨m', h'⟩ := r
          have := grow_load hl hg
          refine ⟨merge t.bits ((((resize b.slots (b.cap * 2))[b.size]?).getD none).getD junk) v, merge_low t _ v, ?_⟩
          simp only [Res.ok_bind, this]
          simp only [Block.write]
          split <;> rfl
      · simp only [if_neg hc]
        refine ⟨merge t.bits (((b.slots[b.size]?).getD none).getD junk) v, merge_low t _ v, ?_⟩
        show (m.load h >>= _) = (m.load h >>= _)
        rw [hl]
        simp only [Res.ok_bind, Block.write]
        split <;> rfl

theorem items_inplace (its : List (ItemType × Val)) : ∀ {m : Heap} {h k xs cap mvs junks}, Rep m h k xs cap → k ≠ .tuple →
    0 < cap → (∀ b ∈ mvs, b = false) →
    ∃ m' us cap', appendItems mvs junks m h its = .ok m' ∧ Rep m' h k (xs ++ us) cap' ∧
      List.Forall₂ (fun u (it : ItemType × Val) => asBits it.1.bits u = asBits it.1.bits it.2) us its := by
  induction its with
  | nil => intro m h k xs cap mvs junks R _ _ _; exact ⟨m, [], cap, rfl, by simpa using R, .nil⟩
  | cons it its ih =>
    intro m h k xs cap mvs junks R hk pos hin
    obtain ⟨t, v⟩ := it
    obtain ⟨u, hu, e⟩ := item_is_append (mvs.headD false) (junks.headD 0) m h t v
    have hmv : mvs.headD false = false := by
      cases mvs with
      | nil => rfl
      | cons b bs => exact hin b (List.mem_cons_self ..)
    have happ : ∃ m1 c1, dataAppend (mvs.headD false) m h u = .ok (m1, .unit) ∧ Rep m1 h k (xs ++ [u]) c1 ∧ 0 < c1 := by
      rcases Nat.lt_or_ge xs.length cap with hr | hr
      · obtain ⟨m1, a, b, _⟩ := append_room R hk hr (mvs.headD false) u
        exact ⟨m1, cap, a, b, pos⟩
      · have hle := R.le
        obtain ⟨m1, a, b, _⟩ := append_full R hk (by omega) pos u
        exact ⟨m1, cap * 2, by rw [hmv]; exact a, b, by omega⟩
    obtain ⟨m1, c1, e1, R1, p1⟩ := happ
    obtain ⟨m', us, c', e2, R2, F⟩ := ih (mvs := mvs.tail) (junks := junks.tail) R1 hk p1
      (fun b hb => hin b (List.mem_of_mem_tail hb))
    refine ⟨m', u :: us, c', ?_, by simpa using R2, .cons hu F⟩
    unfold appendItems
    rw [e, e1]
    exact e2

/-! ## C92 -/

/-- C92, the part that holds: any number of typed appends to an array, with a `realloc` that keeps the block in place,
adds one element each, in order, and each reads back through the type it was appended with.  Missing: allocators that
move the block (as in C01), and reading a narrow element through a wider type (`narrow_item_keeps_old_bits`). -/
theorem typed_items_read_back_partial (cpus : Nat) (m : Heap) (vs : List Val) (its : List (ItemType × Val))
    (mv0 mvs : List Bool) (junks : List Val) (inplace : ∀ b ∈ mvs, b = false) :
    ∃ m0 h m1 us, arrays cpus mv0 m vs = .ok (m0, h) ∧ appendItems mvs junks m0 h its = .ok m1 ∧
      contents m1 h = .ok (vs ++ us) ∧
      List.Forall₂ (fun u (it : ItemType × Val) => asBits it.1.bits u = asBits it.1.bits it.2) us its := by
  obtain ⟨m0, e0, R0, _, _⟩ := arrays_rep cpus mv0 m vs
  obtain ⟨m1, us, c, e1, R1, F⟩ := items_inplace its (mvs := mvs) (junks := junks) R0 (by decide)
    (by have := initialCap_gt cpus vs.length; omega) inplace
  exact ⟨m0, m.length, m1, us, e0, e1, contents_of_rep R1, F⟩

/-- C92 for the 64-bit types: the element is exactly the value. -/
theorem wide_item_exact (cpus : Nat) (m : Heap) (vs : List Val) (t : ItemType) (v : Val) (mv0 : List Bool) (mv : Bool)
    (junk : Val) (ht : t.bits = 64) :
    ∃ m0 h m1, arrays cpus mv0 m vs = .ok (m0, h) ∧ dataAppendItem mv junk m0 h t v = .ok (m1, .unit) ∧
      contents m1 h = .ok (vs ++ [v]) := by
  obtain ⟨m0, h, m1, e0, e1, e2⟩ := append_after_arrays cpus m vs mv0 mv v
  obtain ⟨u, hu, e⟩ := item_is_append mv junk m0 h t v
  have : u = v := by
    unfold asBits at hu
    rw [ht, Nat.mod_eq_of_lt u.isLt, Nat.mod_eq_of_lt v.isLt] at hu
    exact BitVec.eq_of_toNat_eq hu
  rw [this] at e
  exact ⟨m0, h, m1, e0, by rw [e]; exact e1, e2⟩

example : ItemType.bits .string = 64 ∧ ItemType.bits .double = 64 := by decide

/-- C92 fails for the narrow types read as anything wider: the rest of the element is what an earlier element left
there, for every earlier value. -/
theorem narrow_item_keeps_old_bits (cpus : Nat) (m : Heap) (old v : Val) (t : ItemType) (mv : Bool) (junk : Val) :
    ∃ m0 h m1 m2 u, arrays cpus [] m [old] = .ok (m0, h) ∧ dataPop m0 h = .ok (m1, .value old) ∧
      dataAppendItem mv junk m1 h t v = .ok (m2, .unit) ∧ contents m2 h = .ok [u] ∧
      u.toNat = old.toNat / 2 ^ t.bits * 2 ^ t.bits + v.toNat % 2 ^ t.bits := by
  obtain ⟨m0, e0, ⟨⟨s, es, sl, st⟩, le⟩, _, _⟩ := arrays_rep cpus [] m [old]
  obtain ⟨s', hs'⟩ : ∃ s', s = some old :: s' := by
    cases s with
    | nil => simp at st
    | cons a s' => simp at st; exact ⟨s', by rw [st]⟩
  subst hs'
  have hc : 2 ≤ initialCap cpus 1 := initialCap_gt cpus 1
  generalize hcap : initialCap cpus [old].length = cap at *
  have hcap2 : 2 ≤ cap := hc
  have hl0 := load_of_getElem? es
  have hpop : dataPop m0 m.length = .ok (m0.store m.length ⟨.array, 0, cap, some old :: s'⟩, .value old) := by
    simp [dataPop, hl0, Block.read, dataRemove, memmoveDown]
  have hl1 : (m0.store m.length ⟨.array, 0, cap, some old :: s'⟩).load m.length = .ok ⟨.array, 0, cap, some old :: s'⟩ :=
    load_of_getElem? (store_get es)
  have hn : ¬ cap ≤ 0 := by omega
  refine ⟨m0, m.length, _, (m0.store m.length ⟨.array, 0, cap, some old :: s'⟩).store m.length
    ⟨.array, 1, cap, some (merge t.bits old v) :: s'⟩, merge t.bits old v, e0, hpop, ?_, ?_, merge_toNat _ _ _ (bits_le t)⟩
  · unfold dataAppendItem
    rw [hl1]
    simp only [Res.ok_bind]
    rw [if_neg (by decide), if_neg hn]
    show (Heap.load _ _ >>= _) = _
    rw [hl1]
    simp [Block.write]
  · refine contents_of_rep (k := .array) (cap := cap) ⟨⟨some (merge t.bits old v) :: s', ?_, sl, by simp⟩, by simp; omega⟩
    rw [store_get (store_get es)]
    rfl

example : asBits 64 (merge (ItemType.bits .char) (-1) 65) = 0xffffffffffffff41 := by decide

/-- C92, tuples: typed appends to a tuple are refused like plain ones and change nothing. -/
theorem typed_append_to_tuple (m : Heap) (h : Handle) (t : ItemType) (v junk : Val) (mv : Bool)
    (hk : kindOf m h = .ok .tuple) : dataAppendItem mv junk m h t v = .ok (m, .threw) := by
  unfold kindOf at hk
  cases hl : m.load h with
  | ub => rw [hl] at hk; cases hk
  | ok b =>
    rw [hl] at hk
    have hb : b.kind = .tuple := by simpa using hk
    unfold dataAppendItem
    rw [hl]
    simp [hb]

example : kindOf [some ⟨.tuple, 1, 2, [some 7, none]⟩] 0 = .ok .tuple := by decide

end Verif.Arrays
