import Verif.Watch.Model

/-!
# Change records reach the handler (C71)
-/

namespace Verif.Watch

/-! ## Specification -/

/-- A record of the kernel: `name` padded with `pad` zero bytes. -/
structure Rec where
  wd : BitVec 32
  mask : BitVec 32
  cookie : BitVec 32
  name : Bytes
  pad : Nat

/-- What inotify(7) promises: a name has no zero byte inside and at least one behind it; without a name nothing follows
the header; the length fits its field. -/
def Rec.Ok (r : Rec) : Prop :=
  NulFree r.name ∧ (r.name = [] → r.pad = 0) ∧ (r.name ≠ [] → 0 < r.pad) ∧ r.name.length + r.pad < 2 ^ 32

instance (r : Rec) : Decidable r.Ok := by unfold Rec.Ok; infer_instance

def le32 (x : BitVec 32) : Bytes :=
  [UInt8.ofNat x.toNat, UInt8.ofNat (x.toNat / 256), UInt8.ofNat (x.toNat / 65536), UInt8.ofNat (x.toNat / 16777216)]

/-- The bytes of a record: wd, mask, cookie, len, name. -/
def Rec.bytes (r : Rec) : Bytes :=
  le32 r.wd ++ le32 r.mask ++ le32 r.cookie ++ le32 (BitVec.ofNat 32 (r.name.length + r.pad)) ++ r.name
    ++ List.replicate r.pad 0

inductive Kind where
  | added | removed | moved | modified
  deriving DecidableEq

/-- What a mask says, by bit number: 8 created, 7 moved to, 9 deleted, 10 self deleted, 6 moved from, 11 self moved,
1 modified, 2 attributes. -/
def kindOf (m : BitVec 32) : Option Kind :=
  if m.getLsbD 8 || m.getLsbD 7 then some .added
  else if m.getLsbD 9 || m.getLsbD 10 || m.getLsbD 6 then some .removed
  else if m.getLsbD 11 then some .moved
  else if m.getLsbD 1 || m.getLsbD 2 then some .modified
  else none

/-- The flag of a kind as a user tests it. -/
def Kind.flag : Kind → BitVec 32
  | .added => WATCH_ADDED
  | .removed => WATCH_REMOVED
  | .moved => WATCH_MOVED
  | .modified => WATCH_MODIFIED

/-- A call tells kind `k`: of the four flags exactly that of `k` is set. -/
def Tells (c : Call) (k : Kind) : Prop := ∀ j : Kind, c.events &&& j.flag ≠ 0#32 ↔ j = k

/-- Where the change happened, for the user: `root` directory itself, or a directory below it. -/
inductive Dir where
  | root
  | sub (path : Bytes)

/-- The path a user expects: relative to the root, or the directory, a slash and the name (`PATH_MAX` bounds it). -/
def Dir.path : Dir → Bytes → Bytes
  | .root, n => n
  | .sub d, n => (d ++ 0x2f :: n).take 4095

/-- `c` is the right call for record `r`. -/
def Reports (dirs : Nat → Option Dir) (r : Rec) (c : Call) : Prop :=
  ∃ k d, kindOf r.mask = some k ∧ dirs r.wd.toNat = some d ∧ c.wd = r.wd.toNat ∧ Tells c k ∧ c.path = d.path r.name

/-- The records a handler is called for: with a name and one of the four kinds. -/
def Named (r : Rec) : Bool := decide (r.name ≠ []) && (kindOf r.mask).isSome

/-- The table knows the directories. -/
def Knows (s : St) (dirs : Nat → Option Dir) (rs : List Rec) : Prop :=
  ∀ r ∈ rs, Named r = true → r.wd.toNat < s.size ∧ r.wd.toNat < 2 ^ 31 ∧
    match dirs r.wd.toNat with
    | some .root => (s.slot r.wd.toNat).changes = true
    | some (.sub d) => (s.slot r.wd.toNat).changes = false ∧ (s.slot r.wd.toNat).path = some d
    | none => False

/-! ## Helpers -/

theorem and_two (m : BitVec 32) (a b : Nat) (ha : a < 32) (hb : b < 32) :
    (m &&& (BitVec.twoPow 32 a ||| BitVec.twoPow 32 b) = 0#32) ↔ m.getLsbD a = false ∧ m.getLsbD b = false := by
  constructor
  · intro h
    have h1 := congrArg (fun x => BitVec.getLsbD x a) h
    have h2 := congrArg (fun x => BitVec.getLsbD x b) h
    simp [ha, hb] at h1 h2
    exact ⟨h1, h2⟩
  · rintro ⟨h1, h2⟩
    apply BitVec.eq_of_getLsbD_eq
    intro i hi
    by_cases e1 : i = a
    · subst e1; simp [h1]
    · by_cases e2 : i = b
      · subst e2; simp [h2]
      · simp [Ne.symm e1, Ne.symm e2]

theorem and_three (m : BitVec 32) (a b c : Nat) (ha : a < 32) (hb : b < 32) (hc : c < 32) :
    (m &&& (BitVec.twoPow 32 a ||| BitVec.twoPow 32 b ||| BitVec.twoPow 32 c) = 0#32) ↔
      m.getLsbD a = false ∧ m.getLsbD b = false ∧ m.getLsbD c = false := by
  constructor
  · intro h
    have h1 := congrArg (fun x => BitVec.getLsbD x a) h
    have h2 := congrArg (fun x => BitVec.getLsbD x b) h
    have h3 := congrArg (fun x => BitVec.getLsbD x c) h
    simp [ha, hb, hc] at h1 h2 h3
    exact ⟨h1, h2, h3⟩
  · rintro ⟨h1, h2, h3⟩
    apply BitVec.eq_of_getLsbD_eq
    intro i hi
    by_cases e1 : i = a
    · subst e1; simp [h1]
    · by_cases e2 : i = b
      · subst e2; simp [h2]
      · by_cases e3 : i = c
        · subst e3; simp [h3]
        · simp [Ne.symm e1, Ne.symm e2, Ne.symm e3]

theorem and_one (m : BitVec 32) (a : Nat) (ha : a < 32) :
    (m &&& BitVec.twoPow 32 a = 0#32) ↔ m.getLsbD a = false := by
  have := and_two m a a ha ha
  simpa using this

theorem action_eq (m : BitVec 32) : action m = match kindOf m with | some k => k.flag | none => 0#32 := by
  have e1 : (m &&& 0x180#32 = 0#32) ↔ _ := and_two m 8 7 (by omega) (by omega)
  have e2 : (m &&& 0x640#32 = 0#32) ↔ _ := and_three m 9 10 6 (by omega) (by omega) (by omega)
  have e3 : (m &&& 0x800#32 = 0#32) ↔ _ := and_one m 11 (by omega)
  have e4 : (m &&& 0x6#32 = 0#32) ↔ _ := and_two m 1 2 (by omega) (by omega)
  unfold action kindOf
  simp only [Ne, e1, e2, e3, e4]
  cases m.getLsbD 8 <;> cases m.getLsbD 7 <;> cases m.getLsbD 9 <;> cases m.getLsbD 10 <;> cases m.getLsbD 6 <;>
    cases m.getLsbD 11 <;> cases m.getLsbD 1 <;> cases m.getLsbD 2 <;> simp [Kind.flag]

theorem action_ne_zero (m : BitVec 32) : action m ≠ 0#32 ↔ (kindOf m).isSome := by
  rw [action_eq]
  cases kindOf m with
  | none => simp
  | some k => cases k <;> simp [Kind.flag] <;> decide

theorem rd32_le32 (pre post : Bytes) (x : BitVec 32) : rd32 (pre ++ le32 x ++ post) pre.length = .ok x := by
  have hx := x.isLt
  simp only [rd32, rd, le32, List.append_assoc]
  simp
  apply BitVec.eq_of_toNat_eq
  simp
  omega

theorem Rec.bytes_length (r : Rec) : r.bytes.length = 16 + (r.name.length + r.pad) := by
  simp [Rec.bytes, le32]
  omega

theorem rd32_at {b pre post : Bytes} {x : BitVec 32} {i : Nat} (hb : b = pre ++ le32 x ++ post) (hi : i = pre.length) :
    rd32 b i = .ok x := by
  subst hb hi
  exact rd32_le32 pre post x

theorem strAt_at {b pre post n : Bytes} {i : Nat} (hb : b = pre ++ (n ++ 0 :: post)) (hi : i = pre.length) (hn : NulFree n) :
    strAt b i = .ok n := by
  subst hb hi
  simp only [strAt, List.drop_left]
  rw [if_pos (by simp)]
  congr 1
  rw [List.takeWhile_append_of_pos (fun x hx => by simpa using hn x hx)]
  simp

theorem flag_tells (k : Kind) (w : Nat) (path : Bytes) :
    Tells ⟨w, k.flag ||| ~~~(WATCH_MODIFIED ||| WATCH_REMOVED ||| WATCH_ADDED ||| WATCH_MOVED), path⟩ k := by
  intro j
  dsimp only
  cases j <;> cases k <;> decide

theorem pathArg_known {s : St} {dirs : Nat → Option Dir} {r : Rec} (h : Knows s dirs [r]) (hn : Named r = true) :
    ∃ d, dirs r.wd.toNat = some d ∧ pathArg s r.wd r.name = .ok (d.path r.name) := by
  obtain ⟨h1, h2, h3⟩ := h r (by simp) hn
  simp only [pathArg]
  rw [if_pos ⟨h1, h2⟩]
  cases hd : dirs r.wd.toNat with
  | none => rw [hd] at h3; exact h3.elim
  | some d =>
    rw [hd] at h3
    refine ⟨d, rfl, ?_⟩
    cases d with
    | root =>
      have h3 : (s.slot r.wd.toNat).changes = true := h3
      simp [h3, Dir.path]
    | sub p =>
      have h3 : (s.slot r.wd.toNat).changes = false ∧ (s.slot r.wd.toNat).path = some p := h3
      simp [h3, Dir.path, PATH_MAX]

theorem handlerLoop_reports (s : St) (dirs : Nat → Option Dir) (junk : Bytes) :
    ∀ (rs : List Rec) (pre : Bytes) (len k : Nat), (∀ r ∈ rs, r.Ok) → Knows s dirs rs →
      len = pre.length + (rs.flatMap Rec.bytes).length → len - pre.length < k →
      ∃ cs, handlerLoop s (pre ++ rs.flatMap Rec.bytes ++ junk) len k pre.length = .ok cs ∧
        List.Forall₂ (Reports dirs) (rs.filter Named) cs
  | [], pre, len, k + 1, _, _, hl, _ => by
    refine ⟨[], ?_, .nil⟩
    simp at hl
    rw [handlerLoop, if_neg (by omega)]
  | r :: rs, pre, len, k + 1, hok, hk, hl, hf => by
    have hlen := r.bytes_length
    have hr := hok r (by simp)
    simp only [List.flatMap_cons, List.length_append] at hl
    obtain ⟨cs, hc, hcs⟩ := handlerLoop_reports s dirs junk rs (pre ++ r.bytes) len k (fun x hx => hok x (by simp [hx]))
      (fun x hx => hk x (by simp [hx])) (by simp only [List.length_append]; omega) (by simp only [List.length_append]; omega)
    have eb : pre ++ (r :: rs).flatMap Rec.bytes ++ junk = pre ++ r.bytes ++ rs.flatMap Rec.bytes ++ junk := by
      simp [List.append_assoc]
    rw [eb]
    generalize hpost : rs.flatMap Rec.bytes ++ junk = post at *
    have eb2 : pre ++ r.bytes ++ rs.flatMap Rec.bytes ++ junk = pre ++ r.bytes ++ post := by
      rw [← hpost]; simp [List.append_assoc]
    rw [eb2] at hc ⊢
    have w1 : rd32 (pre ++ r.bytes ++ post) pre.length = .ok r.wd :=
      rd32_at (pre := pre) (post := le32 r.mask ++ le32 r.cookie ++ le32 (BitVec.ofNat 32 (r.name.length + r.pad)) ++ r.name
        ++ List.replicate r.pad 0 ++ post) (by simp [Rec.bytes, List.append_assoc]) rfl
    have w2 : rd32 (pre ++ r.bytes ++ post) (pre.length + 4) = .ok r.mask :=
      rd32_at (pre := pre ++ le32 r.wd) (post := le32 r.cookie ++ le32 (BitVec.ofNat 32 (r.name.length + r.pad)) ++ r.name
        ++ List.replicate r.pad 0 ++ post) (by simp [Rec.bytes, List.append_assoc]) (by simp [le32])
    have w3 : rd32 (pre ++ r.bytes ++ post) (pre.length + 12) = .ok (BitVec.ofNat 32 (r.name.length + r.pad)) :=
      rd32_at (pre := pre ++ le32 r.wd ++ le32 r.mask ++ le32 r.cookie) (post := r.name
        ++ List.replicate r.pad 0 ++ post) (by simp [Rec.bytes, List.append_assoc]) (by simp [le32])
    have hn : (BitVec.ofNat 32 (r.name.length + r.pad)).toNat = r.name.length + r.pad := by
      rw [BitVec.toNat_ofNat, Nat.mod_eq_of_lt hr.2.2.2]
    rw [handlerLoop, if_pos (by omega), w1, w2, w3]
    simp only [Res.ok_bind]
    have hp : pre.length + 16 + (BitVec.ofNat 32 (r.name.length + r.pad)).toNat = (pre ++ r.bytes).length := by
      rw [hn, List.length_append, hlen]; omega
    rw [hp, hc]
    by_cases hN : Named r = true
    · have hN' := hN
      simp only [Named, Bool.and_eq_true, decide_eq_true_eq] at hN'
      obtain ⟨hne, hkind⟩ := hN'
      have hpad := hr.2.2.1 hne
      obtain ⟨d, hd, hpa⟩ := pathArg_known (s := s) (dirs := dirs) (r := r)
        (fun x hx => hk x (by simp at hx; simp [hx])) hN
      have hstr : strAt (pre ++ r.bytes ++ post) (pre.length + 16) = .ok r.name :=
        strAt_at (pre := pre ++ le32 r.wd ++ le32 r.mask ++ le32 r.cookie ++ le32 (BitVec.ofNat 32 (r.name.length + r.pad)))
          (post := List.replicate (r.pad - 1) 0 ++ post)
          (by
            obtain ⟨q, hq⟩ : ∃ q, r.pad = q + 1 := ⟨r.pad - 1, by omega⟩
            simp [Rec.bytes, List.append_assoc, hq, List.replicate_succ])
          (by simp [le32]) hr.1
      have hz : BitVec.ofNat 32 (r.name.length + r.pad) ≠ 0#32 := by
        intro e
        have := congrArg BitVec.toNat e
        rw [hn] at this
        simp at this
        exact hne this.1
      rw [if_pos ⟨hz, (action_ne_zero _).2 hkind⟩, hstr]
      simp only [Res.ok_bind, hpa]
      refine ⟨_, rfl, ?_⟩
      rw [List.filter_cons_of_pos hN]
      obtain ⟨k, hk'⟩ := Option.isSome_iff_exists.1 hkind
      refine .cons ⟨k, d, hk', hd, rfl, ?_, rfl⟩ hcs
      have : action r.mask = k.flag := by rw [action_eq, hk']
      rw [this]
      exact flag_tells k _ _
    · rw [List.filter_cons_of_neg hN]
      have hno : ¬ (BitVec.ofNat 32 (r.name.length + r.pad) ≠ 0#32 ∧ action r.mask ≠ 0#32) := by
        rintro ⟨h1, h2⟩
        apply hN
        rw [Named, Bool.and_eq_true, decide_eq_true_eq]
        refine ⟨fun e => h1 ?_, (action_ne_zero _).1 h2⟩
        rw [e, hr.2.1 e]
        rfl
      rw [if_neg hno]
      exact ⟨cs, rfl, hcs⟩

/-! ## C71 -/

/-- However many records one read delivers, with any masks, names and paddings: the handler is called once for every record
that has a name and one of the four kinds of change, in the order of the records, with the watch number, with exactly
the flag of that kind among the four, and with the path of the changed file; for no other record. -/
theorem handler_reports (s : St) (dirs : Nat → Option Dir) (rs : List Rec) (junk : Bytes) (hok : ∀ r ∈ rs, r.Ok)
    (hk : Knows s dirs rs) :
    ∃ cs, handler s (rs.flatMap Rec.bytes ++ junk) (rs.flatMap Rec.bytes).length = .ok cs ∧
      List.Forall₂ (Reports dirs) (rs.filter Named) cs := by
  exact handlerLoop_reports s dirs junk rs [] (rs.flatMap Rec.bytes).length ((rs.flatMap Rec.bytes).length + 1) hok hk
    (Nat.zero_add _).symm (Nat.lt_succ_self _)

/-- A change of the watched directory itself (deleted, moved: records without a name) is never reported, though the watch
asks for it (`IN_DELETE_SELF`, `IN_MOVE_SELF`). -/
theorem self_change_unreported (s : St) (rs : List Rec) (junk : Bytes) (h : ∀ r ∈ rs, r.name = [] ∧ r.pad = 0) :
    handler s (rs.flatMap Rec.bytes ++ junk) (rs.flatMap Rec.bytes).length = .ok [] := by
  have hN : ∀ r ∈ rs, Named r = false := fun r hr => by simp [Named, (h r hr).1]
  obtain ⟨cs, h1, h2⟩ := handler_reports s (fun _ => none) rs junk
    (fun r hr => by obtain ⟨a, b⟩ := h r hr; simp [Rec.Ok, a, b, NulFree])
    (fun r hr hn => by rw [hN r hr] at hn; cases hn)
  rw [h1]
  have : rs.filter Named = [] := List.filter_eq_nil_iff.2 fun r hr => by rw [hN r hr]; simp
  rw [this] at h2
  cases h2
  rfl

/-- A table with the root as watch 1 and "d/e" as watch 2. -/
def sample : St := ⟨8, fun i =>
  if i = 1 then ⟨true, true, 1, 5, true, some [0x64], 0, 0, none⟩
  else if i = 2 then ⟨true, true, 2, 5, false, some [0x64, 0x2f, 0x65], 0, 0, none⟩ else Slot.empty, fun _ _ => none⟩

/-- The root: "a" created, the directory itself moved; "d/e": "b" deleted, attributes of "b" changed. -/
def sampleRecs : List Rec :=
  [⟨1#32, 0x100#32, 0#32, [0x61], 15⟩, ⟨1#32, 0x800#32, 0#32, [], 0⟩, ⟨2#32, 0x200#32, 0#32, [0x62], 15⟩,
    ⟨2#32, 0x4#32, 7#32, [0x62], 3⟩]

def sampleDirs : Nat → Option Dir := fun i =>
  if i = 1 then some .root else if i = 2 then some (.sub [0x64, 0x2f, 0x65]) else none

example : (∀ r ∈ sampleRecs, r.Ok) ∧ Knows sample sampleDirs sampleRecs ∧ (sampleRecs.filter Named).length = 3 := by
  refine ⟨by decide, ?_, by decide⟩
  intro r hr _
  simp only [sampleRecs, List.mem_cons, List.not_mem_nil, or_false] at hr
  rcases hr with rfl | rfl | rfl | rfl
  · exact ⟨by decide, by decide, rfl⟩
  · exact ⟨by decide, by decide, rfl⟩
  · exact ⟨by decide, by decide, rfl, rfl⟩
  · exact ⟨by decide, by decide, rfl, rfl⟩

example : handler sample (sampleRecs.flatMap Rec.bytes) 83 = .ok
    [⟨1, 0xffbebbff#32 ||| WATCH_ADDED, [0x61]⟩, ⟨2, 0xffbebbff#32 ||| WATCH_REMOVED, [0x64, 0x2f, 0x65, 0x2f, 0x62]⟩,
      ⟨2, 0xffbebbff#32 ||| WATCH_MODIFIED, [0x64, 0x2f, 0x65, 0x2f, 0x62]⟩] := by decide +kernel

example : ∃ r : Rec, r.name = [] ∧ r.pad = 0 ∧ kindOf r.mask = some .moved := ⟨⟨1#32, 0x800#32, 0#32, [], 0⟩, rfl, rfl, by decide⟩

end Verif.Watch
