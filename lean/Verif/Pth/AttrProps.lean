import Verif.Pth.Attr

/-!
# What holds of attributes (C193, C194)
-/

namespace Verif.Pth.Attr

/-! ## Bits -/

theorem sub_of {b v : Word} (h : ~~~b &&& v = 0#32) : v &&& b = v := by
  ext k hk
  have := congrArg (fun w : Word => w[k]) h
  simp only [BitVec.getElem_and, BitVec.getElem_not, BitVec.getElem_zero] at this ⊢
  cases hb : b[k] <;> cases hv : v[k] <;> simp_all

theorem sub_iff {b v : Word} : ~~~b &&& v = 0#32 ↔ v &&& b = v := by
  refine ⟨sub_of, fun h => ?_⟩
  rw [← h]
  ext k hk
  simp only [BitVec.getElem_and, BitVec.getElem_not, BitVec.getElem_zero]
  cases b[k] <;> cases v[k] <;> rfl

/-- Put a value in place of the bits `b`: these bits are read back. -/
theorem put_same {a b v : Word} (h : v &&& b = v) : ((a &&& ~~~b) ||| v) &&& b = v := by
  rw [← h]
  ext k hk
  simp only [BitVec.getElem_and, BitVec.getElem_not, BitVec.getElem_or]
  cases a[k] <;> cases b[k] <;> cases v[k] <;> rfl

/-- Other bits are as before. -/
theorem put_other {a b c v : Word} (h : v &&& b = v) (hd : b &&& c = 0#32) : ((a &&& ~~~b) ||| v) &&& c = a &&& c := by
  rw [← h]
  ext k hk
  have := congrArg (fun w : Word => w[k]) hd
  simp only [BitVec.getElem_and, BitVec.getElem_not, BitVec.getElem_or, BitVec.getElem_zero] at this ⊢
  cases hb : b[k] <;> cases hc : c[k] <;> simp_all

theorem bit_eq (f : Flag) : ∃ i : Nat, f.bit = BitVec.twoPow 32 i := by
  cases f
  · exact ⟨2, by decide⟩
  · exact ⟨3, by decide⟩
  · exact ⟨4, by decide⟩

/-- A value with no bit outside a flag is 0 or the flag. -/
theorem legal_iff (f : Flag) (v : Word) : v &&& f.bit = v ↔ v = 0#32 ∨ v = f.bit := by
  obtain ⟨i, hb⟩ := bit_eq f
  rw [hb]
  constructor
  · intro h
    rw [← h, BitVec.and_twoPow]
    split <;> simp
  · rintro (rfl | rfl) <;> simp

theorem disjoint_bits {f g : Flag} (h : f ≠ g) : f.bit &&& g.bit = 0#32 := by
  cases f <;> cases g <;> first | exact absurd rfl h | decide

/-! ## C193: attributes of threads -/

/-- An attribute takes its two values (0 and the flag) and no others. -/
theorem set_ok_iff (p : Word) (f : Flag) (v : Word) : (setState p f v).2 = true ↔ v = 0#32 ∨ v = f.bit := by
  rw [← legal_iff, ← sub_iff]
  unfold setState
  split <;> simp_all

/-- What a program has set last: the last legal value given for this attribute, 0 (joinable, explicit, process) if there is none. -/
def lastSet (f : Flag) (ops : List (Flag × Word)) : Word :=
  ops.foldl (fun v o => if o.1 = f ∧ (o.2 = 0#32 ∨ o.2 = f.bit) then o.2 else v) 0#32

theorem lastSet_append (f : Flag) (l : List (Flag × Word)) (o : Flag × Word) :
    lastSet f (l ++ [o]) = if o.1 = f ∧ (o.2 = 0#32 ∨ o.2 = f.bit) then o.2 else lastSet f l := by
  simp [lastSet]

theorem set_inv {p : Word} {ops : List (Flag × Word)} (hp : ∀ f, getState p f = lastSet f ops) (hl : p &&& 3#32 = 1#32)
    (o : Flag × Word) :
    (∀ f, getState (setState p o.1 o.2).1 f = lastSet f (ops ++ [o])) ∧ (setState p o.1 o.2).1 &&& 3#32 = 1#32 := by
  obtain ⟨g, v⟩ := o
  by_cases hv : v &&& g.bit = v
  · have hs : (setState p g v).1 = (p &&& ~~~g.bit) ||| v := by
      unfold setState; rw [if_neg]; simpa using sub_iff.2 hv
    rw [hs]
    refine ⟨fun f => ?_, ?_⟩
    · rw [lastSet_append]
      by_cases hf : g = f
      · subst hf
        rw [if_pos ⟨rfl, (legal_iff g v).1 hv⟩]
        exact put_same hv
      · rw [if_neg (fun h => hf h.1), ← hp f]
        exact put_other hv (disjoint_bits hf)
    · rw [← hl]
      exact put_other hv (by cases g <;> decide)
  · have hs : (setState p g v).1 = p := by
      unfold setState; rw [if_pos]; exact fun h => hv (sub_iff.1 h)
    rw [hs]
    refine ⟨fun f => ?_, hl⟩
    rw [lastSet_append, if_neg, hp f]
    rintro ⟨hf, h⟩
    subst hf
    exact hv ((legal_iff g v).2 h)

/-- Each attribute reads back what was last set legally, whatever was tried and whatever was set for the others; and a thread made
with these attributes begins with cancelling enabled and deferred. -/
theorem attr_reads_last (ops : List (Flag × Word)) :
    (∀ f, getState (setAll attrInit ops) f = lastSet f ops) ∧ setAll attrInit ops &&& 3#32 = 1#32 := by
  have : ∀ (l done : List (Flag × Word)) (p : Word), (∀ f, getState p f = lastSet f done) → p &&& 3#32 = 1#32 →
      (∀ f, getState (setAll p l) f = lastSet f (done ++ l)) ∧ setAll p l &&& 3#32 = 1#32 := by
    intro l
    induction l with
    | nil => intro done p h1 h2; simpa [setAll] using ⟨h1, h2⟩
    | cons o t ih =>
      intro done p h1 h2
      obtain ⟨h3, h4⟩ := set_inv h1 h2 o
      have := ih (done ++ [o]) _ h3 h4
      simpa [setAll] using this
  simpa using this ops [] attrInit (by intro f; cases f <;> decide) (by decide)

example : lastSet .detach [(.detach, 4#32), (.scope, 16#32), (.detach, 5#32)] = 4#32 := by decide

/-- `pthread_setcancelstate` and `pthread_setcanceltype` give back the value before, keep each other's and the attributes'. -/
theorem cancel_settings (p v : Word) (hv : v = 0#32 ∨ v = 1#32) (w : Word) (hw : w = 0#32 ∨ w = 2#32) :
    let q := (setCancelState p v).1
    let r := (setCancelType q w).1
    (setCancelState p v).2.2 = p &&& 1#32 ∧ (setCancelType q w).2.2 = p &&& 2#32 ∧
      r &&& 1#32 = v ∧ r &&& 2#32 = w ∧ ∀ f : Flag, r &&& f.bit = p &&& f.bit := by
  have h1 : v &&& 1#32 = v := by rcases hv with rfl | rfl <;> decide
  have h2 : w &&& 2#32 = w := by rcases hw with rfl | rfl <;> decide
  simp only [setCancelState, setCancelType, h1, h2, ne_eq, not_true_eq_false, if_false]
  refine ⟨trivial, put_other h1 (by decide), ?_, put_same h2, fun f => ?_⟩
  · rw [put_other h2 (by decide)]; exact put_same h1
  · rw [put_other h2 (by cases f <;> decide), put_other h1 (by cases f <;> decide)]

/-! ## C194: attributes of mutexes -/

theorem lt_four {t : Word} (h : ¬ t.toNat > 3) : t &&& 3#32 = t := by
  apply BitVec.eq_of_toNat_eq
  have : t.toNat &&& 3 = t.toNat % 4 := Nat.and_two_pow_sub_one_eq_mod t.toNat 2
  simp [this]; omega

theorem div_eq_shift (x : Word) : x / 32#32 = x >>> 5 := by
  apply BitVec.eq_of_toNat_eq
  simp [BitVec.toNat_udiv, Nat.shiftRight_eq_div_pow]

theorem high_bits (k : Nat) : (31#32).getLsbD (5 + k) = false := by
  rw [BitVec.getLsbD_ofNat, Nat.testBit_lt_two_pow, Bool.and_false]
  calc 31 < 2 ^ 5 := by decide
    _ ≤ 2 ^ (5 + k) := Nat.pow_le_pow_right (by decide) (by omega)

/-- Changing bits below 32 does not change the ceiling. -/
theorem put_ceiling {a b v : Word} (h : v &&& b = v) (hb : b &&& 31#32 = b) : getCeiling ((a &&& ~~~b) ||| v) = getCeiling a := by
  rw [getCeiling, getCeiling, div_eq_shift, div_eq_shift, ← h, ← hb]
  ext k hk
  simp only [BitVec.getElem_ushiftRight, BitVec.getLsbD_or, BitVec.getLsbD_and, BitVec.getLsbD_not, high_bits, Bool.and_false,
    Bool.or_false, Bool.not_false, Bool.and_true]
  by_cases h5 : 5 + k < 32
  · simp [h5]
  · simp [h5, BitVec.getLsbD_of_ge a (5 + k) (by omega)]

theorem ceiling_nat {a prio : Word} (h : prio.toNat < 2 ^ 27) :
    (setCeiling a prio).toNat = a.toNat % 32 + prio.toNat * 32 := by
  have : a.toNat &&& 31 = a.toNat % 32 := Nat.and_two_pow_sub_one_eq_mod a.toNat 5
  simp [setCeiling, BitVec.toNat_add, BitVec.toNat_mul, this]
  omega

theorem ceiling_low {a prio c : Word} (h : prio.toNat < 2 ^ 27) (hc : c &&& 31#32 = c) : setCeiling a prio &&& c = a &&& c := by
  have hl : setCeiling a prio &&& 31#32 = a &&& 31#32 := by
    apply BitVec.eq_of_toNat_eq
    have h1 : a.toNat &&& 31 = a.toNat % 32 := Nat.and_two_pow_sub_one_eq_mod a.toNat 5
    have h2 : (setCeiling a prio).toNat &&& 31 = (setCeiling a prio).toNat % 32 := Nat.and_two_pow_sub_one_eq_mod _ 5
    rw [BitVec.toNat_and, BitVec.toNat_and]
    show (setCeiling a prio).toNat &&& 31 = a.toNat &&& 31
    rw [h1, h2, ceiling_nat h]
    omega
  rw [← hc, BitVec.and_comm c, ← BitVec.and_assoc, hl, BitVec.and_assoc]

/-- What a mutex's attributes say: type, shared, protocol, priority ceiling. -/
def view (a : Word) : Word × Word × Word × Word := (getType a, getShared a, getProtocol a, getCeiling a)

/-- Setting the type (0 to 3), the sharing (0 or `PTHREAD_MUTEX_SHARED`), the protocol 24 or a ceiling below 2^27 is accepted, is read
back, and changes nothing else; other types and sharings are refused and change nothing.  Missing: the three protocols of the header and
`PTHREAD_PROCESS_PRIVATE` are refused, other protocols spoil the rest, negative ceilings are not read back. -/
theorem mutexattr_partial (a v : Word) :
    (v.toNat < 4 → setType a v = ((setType a v).1, true) ∧
      view (setType a v).1 = (v, getShared a, getProtocol a, getCeiling a)) ∧
    (¬ v.toNat < 4 → setType a v = (a, false)) ∧
    (v = 0#32 ∨ v = 4#32 → setShared a v = ((setShared a v).1, true) ∧
      view (setShared a v).1 = (getType a, v, getProtocol a, getCeiling a)) ∧
    (¬ (v = 0#32 ∨ v = 4#32) → setShared a v = (a, false)) ∧
    (v = 24#32 → setProtocol a v = ((setProtocol a v).1, true) ∧
      view (setProtocol a v).1 = (getType a, getShared a, v, getCeiling a)) ∧
    (v.toNat < 2 ^ 27 → view (setCeiling a v) = (getType a, getShared a, getProtocol a, v)) := by
  refine ⟨fun h => ?_, fun h => ?_, fun h => ?_, fun h => ?_, fun h => ?_, fun h => ?_⟩
  · have hn : ¬ v.toNat > 3 := by omega
    have hv := lt_four hn
    simp only [setType, if_neg hn, view, getType, getShared, getProtocol, true_and]
    rw [put_same hv, put_other hv (by decide), put_other hv (by decide), put_ceiling hv (by decide)]
  · rw [setType, if_pos (by omega)]
  · have hv : v &&& 4#32 = v := by rcases h with rfl | rfl <;> decide
    simp only [setShared, hv, ne_eq, not_true_eq_false, if_false, view, getType, getShared, getProtocol, true_and]
    rw [put_same hv, put_other hv (by decide), put_other hv (by decide), put_ceiling hv (by decide)]
  · rw [setShared, if_pos]
    intro hv
    refine h ?_
    have e : (4#32 : Word) = BitVec.twoPow 32 2 := by decide
    rw [e, BitVec.and_twoPow] at hv
    rw [← hv]
    split
    · right; exact e.symm
    · left; rfl
  · subst h
    have hv : (24#32 : Word) &&& 24#32 = 24#32 := by decide
    simp only [setProtocol, hv, ne_eq, not_true_eq_false, if_false, view, getType, getShared, getProtocol, true_and]
    rw [put_same hv, put_other hv (by decide), put_other hv (by decide), put_ceiling hv (by decide)]
  · simp only [view, getType, getShared, getProtocol]
    rw [ceiling_low h (by decide), ceiling_low h (by decide), ceiling_low h (by decide)]
    have : getCeiling (setCeiling a v) = v := by
      apply BitVec.eq_of_toNat_eq
      simp [getCeiling, BitVec.toNat_udiv, ceiling_nat h]
      omega
    rw [this]

example : view (setCeiling (setType 0#32 2#32).1 5#32) = (2#32, 0#32, 0#32, 5#32) := by decide

/-- `PTHREAD_PRIO_NONE`, `PTHREAD_PRIO_INHERIT` and `PTHREAD_PRIO_PROTECT` are refused, and so is `PTHREAD_PROCESS_PRIVATE`. -/
theorem protocols_refused (a : Word) :
    setProtocol a 0#32 = (a, false) ∧ setProtocol a 8#32 = (a, false) ∧ setProtocol a 16#32 = (a, false) ∧
      setShared a 1#32 = (a, false) := by
  refine ⟨rfl, rfl, rfl, rfl⟩

/-- A value with both bits and others is accepted as a protocol, and its other bits go into the rest: the type becomes
`PTHREAD_MUTEX_DEFAULT` whatever it was. -/
theorem protocol_spoils (a : Word) : (setProtocol a 27#32).2 = true ∧ getType (setProtocol a 27#32).1 = 3#32 := by
  refine ⟨rfl, ?_⟩
  have hs : (setProtocol a 27#32).1 = (a &&& ~~~24#32) ||| 27#32 := rfl
  rw [hs, getType]
  have h : (3#32 : Word) = 27#32 &&& 3#32 := by decide
  ext k hk
  have h' := congrArg (fun w : Word => w[k]) h
  simp only [BitVec.getElem_and, BitVec.getElem_or, BitVec.getElem_not] at h' ⊢
  cases h3 : (3#32 : Word)[k] <;> simp_all

/-- A negative ceiling is not read back. -/
theorem ceiling_negative (a prio : Word) (h : prio.toInt < 0) : getCeiling (setCeiling a prio) ≠ prio := by
  intro he
  have hlt : (getCeiling (setCeiling a prio)).toNat < 2 ^ 31 := by
    simp [getCeiling, BitVec.toNat_udiv]
    have := (setCeiling a prio).isLt
    omega
  rw [he] at hlt
  rw [BitVec.toInt_eq_toNat_of_lt (by omega)] at h
  omega

end Verif.Pth.Attr
