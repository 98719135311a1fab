import Verif.Fs.Props

/-!
# Properties of `fs_writefile`, `fs_touch`, `fs_readfile` and `fs_close` (C68 - C70)
-/

namespace Verif.Fs

/-! ## Helpers -/

theorem overwrite_zero (c d : Bytes) : overwrite c 0 d = d ++ c.drop d.length := by simp [overwrite]

theorem kwrite_start {k : K} {fd : Nat} {p : Path} {c : Bytes} (d : Bytes) (hl : look k.tbl fd = some ⟨p, 0⟩)
    (hf : k.files p = some c) :
    (∃ m k', kwrite k fd d = (.got m, k') ∧ m ≤ d.length ∧ look k'.tbl fd = some ⟨p, m⟩ ∧
      k'.files p = some (d.take m ++ c.drop m) ∧ Frame k k' (· = fd) (· = p) ∧
      (k.ans = [] → m = min d.length maxRw)) ∨
    ((kwrite k fd d = (.intr, k.pop) ∨ kwrite k fd d = (.err, k.pop)) ∧ (k.answer = .intr ∨ k.answer = .fail)) := by
  have got : ∀ a, k.answer = a → ∃ m k', ((Io.got (moved a 0 d.length),
      ({ k.pop.setFile p (overwrite ((k.files p).getD []) 0 (d.take (moved a 0 d.length))) with
        tbl := put k.tbl fd (some ⟨p, 0 + moved a 0 d.length⟩) } : K)) : Io Nat × K) = (.got m, k') ∧
      m ≤ d.length ∧ look k'.tbl fd = some ⟨p, m⟩ ∧
      k'.files p = some (d.take m ++ c.drop m) ∧ Frame k k' (· = fd) (· = p) ∧
      (k.ans = [] → m = min d.length maxRw) := by
    intro a hA
    have hle := moved_le a 0 d.length
    refine ⟨_, _, rfl, hle, ?_, ?_, ⟨fun m hm => ?_, fun q hq => ?_, 1, by simp [K.setFile, K.pop]⟩, ?_⟩
    · simp only
      rw [look_put _ (le_of_lt (look_lt hl)), if_pos rfl, Nat.zero_add]
    · simp [K.setFile, hf, overwrite_zero, min_eq_left hle]
    · simp only
      rw [look_put _ (le_of_lt (look_lt hl)), if_neg hm]
    · simp [K.setFile, K.pop, hq]
    · intro hnil
      have : a = .full := hA.symm.trans (by simp [K.answer, hnil])
      subst this
      rfl
  unfold kwrite
  rw [hl]
  simp only
  cases hA : k.answer with
  | full => exact Or.inl (got _ hA)
  | short n => exact Or.inl (got _ hA)
  | intr => exact Or.inr ⟨Or.inl rfl, Or.inl rfl⟩
  | fail => exact Or.inr ⟨Or.inr rfl, Or.inr rfl⟩

theorem fsClose_same {p : P} {fd : Int} (h : p.last[p.idx]? = some fd) :
    fsClose p fd = (-1, { p with last := p.last.set p.idx (-1) }) := by
  unfold fsClose
  simp only
  rw [if_pos h]

theorem fsClose_nat {p : P} {fd : Nat} (h : ¬ (p.last[p.idx]? = some (fd : Int))) :
    fsClose p fd = (if (kclose p.k fd).1 then 0 else -1,
      { p.next (kclose p.k fd).2 with last := p.last.set p.idx fd }) := by
  have hn : ¬ ((fd : Int) < 0) := by omega
  unfold fsClose
  simp only
  rw [if_neg h]
  simp only [if_neg hn, Int.toNat_natCast]

theorem fsClose_files (p : P) (fd : Int) (q : Path) : (fsClose p fd).2.k.files q = p.k.files q := by
  unfold fsClose
  simp only
  split
  · rfl
  · by_cases h : fd < 0
    · simp only [if_pos h, P.next, K.pop]
    · simp only [if_neg h, P.next]
      exact (kclose_frame p.k fd.toNat).files q not_false

theorem fsOpen_spec {p : P} {path : Path} {a b c : Bool} {r : Int} {p' : P} (h : fsOpen p path a b c = (r, p')) :
    (r = -1 ∧ p'.k = p.k.pop ∨
      r = (lowest p.k.tbl : Nat) ∧ look p'.k.tbl (lowest p.k.tbl) = some ⟨path, 0⟩ ∧
      p'.k.files path = some (if c then [] else (p.k.files path).getD []) ∧ (p.k.files path = none → a = true) ∧
      Frame p.k p'.k (· = lowest p.k.tbl) (· = path)) ∧
    p'.cnt = p.cnt + 1 ∧ p'.last = p.last.set p.idx 0 := by
  unfold fsOpen at h
  simp only at h
  cases hk : kopen p.k path a b c with
  | mk r1 k1 =>
    rw [hk] at h
    simp only at h
    cases h
    refine ⟨?_, rfl, rfl⟩
    rcases kopen_spec hk with ⟨rfl, rfl⟩ | ⟨rfl, hl, hf, _, hc, _, fr⟩
    · exact Or.inl ⟨rfl, rfl⟩
    · exact Or.inr ⟨rfl, hl, hf, hc, fr⟩

theorem ofNat32_toInt {n : Nat} (h : n < 2 ^ 31) : (BitVec.ofNat 32 n).toInt = (n : Int) := by
  rw [BitVec.toInt_eq_toNat_cond, BitVec.toNat_ofNat, Nat.mod_eq_of_lt (by omega), if_pos (by omega)]

/-- What `fs_writefile` does to the file, whatever happens. -/
theorem writefile_cases {p p' : P} {code r : Int} {path : Path} {text : Bytes} (ht : text.length < 2 ^ 31)
    (h : fsWritefile p code path text = .ok (r, p')) :
    (∀ q, q ≠ path → p'.k.files q = p.k.files q) ∧
    (p'.k.files path = p.k.files path ∧ r = code ∨
      ∃ m, m ≤ text.length ∧ p'.k.files path = some (text.take m ++ ((p.k.files path).getD []).drop m) ∧
        (r = code ∨ r = m ∨ (m = 0 ∧ r = -1))) := by
  unfold fsWritefile at h
  cases h1 : fsOpen p path true false false with
  | mk fd p1 =>
  rw [h1] at h
  simp only at h
  obtain ⟨h1, hcnt, hlast⟩ := fsOpen_spec h1
  rcases h1 with ⟨rfl, hk⟩ | ⟨rfl, hl, hf, hc, fr⟩
  · rw [if_neg (by decide)] at h
    cases h
    refine ⟨fun q _ => by rw [hk]; rfl, Or.inl ⟨by rw [hk]; rfl, rfl⟩⟩
  · simp only [Bool.false_eq_true, if_false] at hf
    split at h
    · rw [ofNat32_toInt ht] at h
      -- after the write, if any
      have key : ∀ (len : Int) (p2 : P), (if 0 < (text.length : Int) then
          fsWrite p1 (lowest p.k.tbl : Nat) (text.take (text.length : Int).toNat) else .ok ((text.length : Int), p1)) = .ok (len, p2) →
          (∀ q, q ≠ path → p2.k.files q = p.k.files q) ∧ ∃ m, m ≤ text.length ∧
            p2.k.files path = some (text.take m ++ ((p.k.files path).getD []).drop m) ∧ (len = m ∨ (m = 0 ∧ len = -1)) := by
        intro len p2 hw
        split at hw
        · rename_i hpos
          rw [Int.toNat_natCast, List.take_length] at hw
          unfold fsWrite at hw
          rw [if_neg (by omega), Int.toNat_natCast] at hw
          rcases kwrite_start text hl hf with ⟨m, k2, hk, hm, _, hf2, fr2, _⟩ | ⟨hk, _⟩
          · rw [hk] at hw
            simp only at hw
            split at hw
            · cases hw
            cases hw
            exact ⟨fun q hq => (fr2.files q hq).trans (fr.files q hq), m, hm, hf2, Or.inl rfl⟩
          · rcases hk with hk | hk <;>
            · rw [hk] at hw
              simp only at hw
              cases hw
              refine ⟨fun q hq => fr.files q hq, 0, by omega, ?_, Or.inr ⟨rfl, rfl⟩⟩
              show p1.k.files path = _
              simpa using hf
        · rename_i hpos
          have : text.length = 0 := by omega
          cases hw
          refine ⟨fun q hq => fr.files q hq, 0, by omega, by simpa using hf, Or.inl (by omega)⟩
      cases hw : (if 0 < (text.length : Int) then
          fsWrite p1 (lowest p.k.tbl : Nat) (text.take (text.length : Int).toNat) else .ok ((text.length : Int), p1)) with
      | ub => rw [hw] at h; cases h
      | ok x =>
      obtain ⟨len, p2⟩ := x
      rw [hw] at h
      simp only at h
      obtain ⟨ho, m, hm, hfm, hlen⟩ := key len p2 hw
      have fin : ∀ q, (fsClose p2 (lowest p.k.tbl : Nat)).2.k.files q = p2.k.files q := fsClose_files p2 _
      split at h
      · cases h
        refine ⟨fun q hq => by rw [fin]; exact ho q hq, Or.inr ⟨m, hm, by rw [fin]; exact hfm, ?_⟩⟩
        rcases hlen with h | h
        · exact Or.inr (Or.inl h)
        · exact Or.inr (Or.inr h)
      · cases h
        exact ⟨fun q hq => by rw [fin]; exact ho q hq, Or.inr ⟨m, hm, by rw [fin]; exact hfm, Or.inl rfl⟩⟩
    · cases h
      refine ⟨fun q hq => fr.files q hq, Or.inr ⟨0, by omega, by simpa using hf, Or.inl rfl⟩⟩

/-! ## C68: `fs_writefile` and `fs_touch` -/

/-- C68: When `fs_writefile` returns the length of a non-empty text, the file begins with the text, and what the file held beyond
that length is still there. -/
theorem writefile_result {p p' : P} {path : Path} {text : Bytes} (ht : text.length < 2 ^ 31) (hne : text ≠ [])
    (h : fsWritefile p 0 path text = .ok ((text.length : Int), p')) :
    p'.k.files path = some (text ++ ((p.k.files path).getD []).drop text.length) ∧
      ∀ q, q ≠ path → p'.k.files q = p.k.files q := by
  have hpos : 0 < text.length := List.length_pos_of_ne_nil hne
  obtain ⟨ho, hx⟩ := writefile_cases ht h
  refine ⟨?_, ho⟩
  rcases hx with ⟨_, h0⟩ | ⟨m, hm, hf, h0 | h0 | ⟨_, h0⟩⟩
  · omega
  · omega
  · have : m = text.length := by omega
    subst this
    rw [List.take_length] at hf
    exact hf
  · omega

/-- C68: The file holds exactly the text when there was no file, or one that is not longer.  Missing for the full statement: longer
files, for which it is false (`writefile_keeps_tail`). -/
theorem writefile_exact_partial {p p' : P} {path : Path} {text : Bytes} (ht : text.length < 2 ^ 31) (hne : text ≠ [])
    (h : fsWritefile p 0 path text = .ok ((text.length : Int), p')) (hold : ((p.k.files path).getD []).length ≤ text.length) :
    p'.k.files path = some text := by
  rw [(writefile_result ht hne h).1, List.drop_eq_nil_of_le hold, List.append_nil]

/-- C68 is false for a file that holds more than the text: it is not cut off. -/
theorem writefile_keeps_tail {p p' : P} {path : Path} {text old : Bytes} (ht : text.length < 2 ^ 31) (hne : text ≠ [])
    (hold : p.k.files path = some old) (hlen : text.length < old.length)
    (h : fsWritefile p 0 path text = .ok ((text.length : Int), p')) : p'.k.files path ≠ some text := by
  rw [(writefile_result ht hne h).1, hold]
  intro he
  have := congrArg List.length (Option.some.inj he)
  simp at this
  omega

/-- C68 is false for a text of more than 0x20000000 bytes (512 MiB): if `write` takes it at once, its length is taken for a pointer. -/
theorem writefile_large_ub {p : P} {path : Path} {text : Bytes} {code : Int} (h1 : 0x20000000 < text.length)
    (h2 : text.length ≤ 0x7ffff000) (hans : p.k.ans = []) (hfd : 0 < lowest p.k.tbl) : fsWritefile p code path text = .ub := by
  cases e1 : fsOpen p path true false false with
  | mk fd p1 =>
  obtain ⟨h4, _, _⟩ := fsOpen_spec e1
  rcases h4 with ⟨rfl, h5⟩ | ⟨rfl, hl1, hf1, _, fr1⟩
  · exfalso
    unfold fsOpen at e1
    simp only at e1
    cases hk : kopen p.k path true false false with
    | mk r k1 =>
    rw [hk] at e1
    cases r with
    | none =>
      have := kopen_calm (p := path) (creat := true) (excl := false) (trunc := false) (k := p.k)
        (by rw [K.answer, hans]; exact ⟨by simp, by simp⟩) (fun _ => rfl) (fun _ h => by cases h.2)
      rw [hk] at this; cases this
    | some n =>
      have := congrArg Prod.fst e1
      simp only [toInt] at this
      omega
  · simp only [Bool.false_eq_true, if_false] at hf1
    have ha1 : p1.k.ans = [] := by
      obtain ⟨n, hn⟩ := fr1.ans
      rw [hn]; simp [hans]
    have e2 : fsWrite p1 (lowest p.k.tbl : Nat) text = .ub := by
      unfold fsWrite
      rw [if_neg (by omega), Int.toNat_natCast]
      rcases kwrite_start text hl1 hf1 with ⟨m, k2, hk, hm, _, hf2, fr2, hfull⟩ | ⟨hk, hA⟩
      · have hmm := hfull ha1
        have hmr : maxRw = 0x7ffff000 := rfl
        have : m = text.length := by omega
        subst this
        rw [hk]
        exact if_pos h1
      · rw [K.answer, ha1] at hA
        rcases hA with hA | hA <;> cases hA
    unfold fsWritefile
    rw [e1]
    simp only
    rw [if_pos (by omega), ofNat32_toInt (by omega), if_pos (by omega), Int.toNat_natCast, List.take_length, e2]

/-- C68 is false for failures: when the file cannot be opened, 0 is returned and `fs_touch` answers `true`, though there is no
file. -/
theorem failed_touch_is_true {p : P} {path : Path} (hno : p.k.files path = none) (hfail : p.k.answer = .fail) :
    ∃ p', fsTouch p 0 path = .ok (true, p') ∧ p'.k.files path = none := by
  have h1 : kopen p.k path true false false = (none, p.k.pop) := by
    unfold kopen
    rw [hfail]
  have h2 : fsWritefile p 0 path [] = .ok (0, ({ p with last := p.last.set p.idx 0 } : P).next p.k.pop) := by
    unfold fsWritefile fsOpen
    simp only [h1, toInt]
    rw [if_neg (by decide)]
  exact ⟨({ p with last := p.last.set p.idx 0 } : P).next p.k.pop, by unfold fsTouch; rw [h2]; rfl, hno⟩

/-- C68: `fs_touch` never changes what a file holds, and changes no other file; a file that did not exist is created empty when
opening it succeeds with a positive descriptor. -/
theorem touch_keeps_contents {p p' : P} {path : Path} {b : Bool} (h : fsTouch p 0 path = .ok (b, p')) :
    (∀ c, p.k.files path = some c → p'.k.files path = some c) ∧
    (p.k.files path = none → p'.k.files path = none ∨ p'.k.files path = some []) ∧
    (∀ q, q ≠ path → p'.k.files q = p.k.files q) := by
  unfold fsTouch at h
  cases hw : fsWritefile p 0 path [] with
  | ub => rw [hw] at h; cases h
  | ok x =>
  obtain ⟨r, p1⟩ := x
  rw [hw] at h
  simp only at h
  cases h
  obtain ⟨ho, hx⟩ := writefile_cases (by decide) hw
  refine ⟨fun c hc => ?_, fun hn => ?_, ho⟩
  · rcases hx with ⟨h1, _⟩ | ⟨m, hm, hf, _⟩
    · rw [h1, hc]
    · have : m = 0 := by simpa using hm
      subst this
      rw [hf, hc]; rfl
  · rcases hx with ⟨h1, _⟩ | ⟨m, hm, hf, _⟩
    · exact Or.inl (by rw [h1, hn])
    · have : m = 0 := by simpa using hm
      subst this
      exact Or.inr (by rw [hf, hn]; rfl)

/-- A process with the three standard descriptors and one worker. -/
def exP (files : Path → Option Bytes) (ans : List Ans) (n : Nat) : P :=
  ⟨⟨files, [some ⟨0, 0⟩, some ⟨0, 0⟩, some ⟨0, 0⟩], ans⟩, List.replicate n (-1), 0⟩

/-- Writing "no" over "hello" gives "nollo", and 2 is returned. -/
example : ∃ p', fsWritefile (exP (fun p => if p = 1 then some [104, 101, 108, 108, 111] else none) [] 1) 0 1 [110, 111] =
    .ok (2, p') ∧ p'.k.files 1 = some [110, 111, 108, 108, 111] := by
  refine ⟨_, rfl, ?_⟩
  decide

example : ∃ p', fsWritefile (exP (fun _ => none) [] 1) 0 1 [110, 111] = .ok (2, p') ∧ p'.k.files 1 = some [110, 111] := by
  refine ⟨_, rfl, ?_⟩
  decide

example : ∃ p', fsTouch (exP (fun _ => none) [.fail] 1) 0 1 = .ok (true, p') := ⟨_, rfl⟩

/-! ## C69: `fs_readfile` -/

theorem alignUp2_ge (n : Nat) : n ≤ alignUp2 n := by unfold alignUp2; omega

theorem readfile_cases {p p' : P} {path : Path} {buf : Bytes} (h : fsReadfile p path = .ok (some buf, p')) :
    ∃ c n z, p.k.files path = some c ∧ n ≤ c.length ∧ n ≤ maxResult ∧ buf = c.take n ++ List.replicate (z + 1) 0 ∧
      c.length + 1 ≤ buf.length ∧ (p.k.ans = [] → c.length ≤ maxRw → n = c.length) ∧
      ∀ q, p'.k.files q = p.k.files q := by
  unfold fsReadfile at h
  cases h0 : fsFilesize p path with
  | mk len p0 =>
  rw [h0] at h
  simp only at h
  have hk0 : p0.k = p.k.pop := by
    unfold fsFilesize kstat at h0
    cases hA : p.k.answer <;> rw [hA] at h0 <;> cases h0 <;> rfl
  have hlen : 0 < len → ∃ c, p.k.files path = some c ∧ len = c.length := by
    intro hp
    have : len = ((kstat p.k path).1).getD 0 := by
      unfold fsFilesize at h0; cases h0; rfl
    unfold kstat at this
    cases hA : p.k.answer <;> rw [hA] at this <;> simp only at this
    · cases hf : p.k.files path with
      | none => rw [hf] at this; simp at this; omega
      | some c => rw [hf] at this; exact ⟨c, rfl, by simpa using this⟩
    · cases hf : p.k.files path with
      | none => rw [hf] at this; simp at this; omega
      | some c => rw [hf] at this; exact ⟨c, rfl, by simpa using this⟩
    · simp at this; omega
    · simp at this; omega
  split at h
  · rename_i hp
    obtain ⟨c, hc, hl⟩ := hlen hp
    subst hl
    cases h1 : fsOpen p0 path false false false with
    | mk fd p1 =>
    rw [h1] at h
    simp only at h
    obtain ⟨h1, _, _⟩ := fsOpen_spec h1
    rcases h1 with ⟨rfl, _⟩ | ⟨rfl, hl1, hf1, _, fr1⟩
    · rw [if_neg (by decide)] at h; cases h
    · rw [hk0] at hl1 hf1 fr1 h
      have hc0 : p.k.pop.files path = some c := hc
      rw [hc0] at hf1
      simp only [Bool.false_eq_true, if_false, Option.getD_some] at hf1
      split at h
      · unfold fsRead at h
        rw [if_neg (by omega), Int.toNat_natCast] at h
        have hfiles1 : ∀ q, p1.k.files q = p.k.files q := fun q => by
          by_cases hq : q = path
          · rw [hq, hf1, hc]
          · rw [fr1.files q hq]; rfl
        have hge := alignUp2_ge (c.length + 1)
        rcases kread_at (BitVec.ofNat 32 c.length).toNat hl1 hf1 with ⟨m, k2, hk, hm, _, _, fr2, hfull⟩ | ⟨hk, hA⟩ | ⟨hk, hA⟩
        · rw [hk] at h
          simp only at h
          have hd : (c.take m).length = m := by rw [List.length_take]; omega
          by_cases hbig : maxResult < ((c.drop 0).take m).length
          · rw [if_pos hbig] at h; cases h
          rw [if_neg hbig] at h
          cases h
          have hm' : m ≤ maxResult := by
            rw [List.drop_zero, hd] at hbig; omega
          refine ⟨c, m, alignUp2 (c.length + 1) - m - 1, hc, by omega, hm', ?_, ?_, ?_, ?_⟩
          · simp only [Option.getD_some, List.drop_zero, hd]
            congr 2
            omega
          · simp only [Option.getD_some, List.drop_zero, List.length_append, List.length_replicate, hd]
            omega
          · intro hans hle
            have ha1 : p1.k.ans = [] := by
              obtain ⟨n, hn⟩ := fr1.ans
              rw [hn]; simp [K.pop, hans]
            have := hfull ha1
            have hmr : maxRw = 0x7ffff000 := rfl
            rw [BitVec.toNat_ofNat, Nat.mod_eq_of_lt (by omega)] at this
            omega
          · intro q
            rw [fsClose_files]
            show k2.files q = _
            rw [fr2.files q not_false, hfiles1]
        all_goals
          rw [hk] at h
          simp only at h
          cases h
          refine ⟨c, 0, alignUp2 (c.length + 1) - 1, hc, by omega, by omega, ?_, ?_, ?_, ?_⟩
          · simp only [Option.getD_none, List.length_nil, List.take_zero]
            congr 2
            omega
          · simp only [Option.getD_none, List.length_nil, List.nil_append, List.length_replicate]
            omega
          · intro hans _
            exfalso
            have ha1 : p1.k.ans = [] := by
              obtain ⟨n, hn⟩ := fr1.ans
              rw [hn]; simp [K.pop, hans]
            rw [K.answer, ha1] at hA
            cases hA
          · intro q
            rw [fsClose_files]
            exact hfiles1 q
      · cases h
  · cases h

/-- C69: Whatever `fs_readfile` returns is a terminated string made of a beginning of the file, in a buffer with room for the whole
file, and no file changes. -/
theorem readfile_terminated {p p' : P} {path : Path} {buf : Bytes} (h : fsReadfile p path = .ok (some buf, p')) :
    ∃ c n z, p.k.files path = some c ∧ n ≤ c.length ∧ buf = c.take n ++ List.replicate (z + 1) 0 ∧
      c.length + 1 ≤ buf.length ∧ ∀ q, p'.k.files q = p.k.files q := by
  obtain ⟨c, n, z, h1, h2, _, h3, h4, _, h5⟩ := readfile_cases h
  exact ⟨c, n, z, h1, h2, h3, h4, h5⟩

/-- C69: For a file of at most 0x20000000 bytes and a kernel that does all it can, the result is the whole file.  Missing for the full
statement: longer files and short reads, for which it is false (`readfile_large_ub`, `readfile_large_cut`, `readfile_short_cut`). -/
theorem readfile_exact_partial {p p' : P} {path : Path} {buf c : Bytes} (h : fsReadfile p path = .ok (some buf, p'))
    (hc : p.k.files path = some c) (hlen : c.length ≤ 0x20000000) (hans : p.k.ans = []) :
    ∃ z, buf = c ++ List.replicate (z + 1) 0 := by
  obtain ⟨c', n, z, h1, _, _, h3, _, h5, _⟩ := readfile_cases h
  rw [hc] at h1
  cases h1
  have := h5 hans (by have hmr : maxRw = 0x7ffff000 := rfl; omega)
  subst this
  rw [List.take_length] at h3
  exact ⟨z, h3⟩

/-- C69 is false for large files: the result, if there is one, never holds the end of a file of more than 0x20000000 bytes. -/
theorem readfile_large_cut {p p' : P} {path : Path} {buf c : Bytes} (h : fsReadfile p path = .ok (some buf, p'))
    (hc : p.k.files path = some c) (hlen : 0x20000000 < c.length) :
    ∃ n z, n < c.length ∧ buf = c.take n ++ List.replicate (z + 1) 0 := by
  obtain ⟨c', n, z, h1, _, hn, h3, _, _, _⟩ := readfile_cases h
  rw [hc] at h1
  cases h1
  have hmr : maxResult = 0x20000000 := rfl
  exact ⟨n, z, by omega, h3⟩

/-- C69 is false for a file of more than 0x20000000 bytes (512 MiB): if `read` delivers it at once, its length is taken for a pointer. -/
theorem readfile_large_ub {p : P} {path : Path} {c : Bytes} (hc : p.k.files path = some c) (h1 : 0x20000000 < c.length)
    (h2 : c.length ≤ 0x7ffff000) (hans : p.k.ans = []) (hfd : 0 < lowest p.k.tbl) : fsReadfile p path = .ub := by
  have e0 : fsFilesize p path = (c.length, p.next p.k.pop) := by
    simp only [fsFilesize, kstat, K.answer, hans, List.headD_nil, hc]
    rfl
  obtain ⟨q, hq⟩ : ∃ q, p.next p.k.pop = q := ⟨_, rfl⟩
  have hqf : q.k.files path = some c := by rw [← hq]; exact hc
  have hqa : q.k.ans = [] := by rw [← hq]; simp [P.next, K.pop, hans]
  have hqt : q.k.tbl = p.k.tbl := by rw [← hq]; rfl
  cases e1 : fsOpen q path false false false with
  | mk fd p1 =>
  obtain ⟨h4, _, _⟩ := fsOpen_spec e1
  have hopen : kopen q.k path false false false ≠ (none, q.k.pop) := by
    unfold kopen
    rw [K.answer, hqa, List.headD_nil]
    simp only [hqf, Bool.false_and, Bool.false_eq_true, if_false]
    intro h; cases h
  rcases h4 with ⟨rfl, h5⟩ | ⟨rfl, hl1, hf1, _, fr1⟩
  · exfalso
    unfold fsOpen at e1
    simp only at e1
    cases hk : kopen q.k path false false false with
    | mk r k1 =>
    rw [hk] at e1
    cases r with
    | none =>
      have := kopen_calm (p := path) (creat := false) (excl := false) (trunc := false) (k := q.k)
        (by rw [K.answer, hqa]; exact ⟨by simp, by simp⟩) (fun h => by rw [hqf] at h; cases h) (fun _ h => by cases h.1)
      rw [hk] at this; cases this
    | some n =>
      have := congrArg Prod.fst e1
      simp only [toInt] at this
      omega
  · rw [hqf] at hf1
    simp only [Bool.false_eq_true, if_false, Option.getD_some] at hf1
    have ha1 : p1.k.ans = [] := by
      obtain ⟨n, hn⟩ := fr1.ans
      rw [hn]; simp [hqa]
    have e2 : fsRead p1 (lowest q.k.tbl : Nat) (BitVec.ofNat 32 c.length) = .ub := by
      unfold fsRead
      rw [if_neg (by omega), Int.toNat_natCast]
      rcases kread_at (BitVec.ofNat 32 c.length).toNat hl1 hf1 with ⟨m, k2, hk, hm, _, _, fr2, hfull⟩ | ⟨hk, hA⟩ | ⟨hk, hA⟩
      · have hmm := hfull ha1
        have hmr : maxRw = 0x7ffff000 := rfl
        rw [BitVec.toNat_ofNat, Nat.mod_eq_of_lt (by omega)] at hmm
        have : m = c.length := by omega
        subst this
        rw [hk]
        simp only [List.drop_zero, List.take_length]
        exact if_pos h1
      · rw [K.answer, ha1] at hA; cases hA
      · rw [K.answer, ha1] at hA; cases hA
    unfold fsReadfile
    rw [e0]
    simp only
    rw [if_pos (by omega), hq, e1]
    simp only
    rw [if_pos (by rw [hqt]; omega), e2]

/-- C69 is false for short reads: only one `read` is made, and its result is ignored.  (Two bytes of five; a failed read gives the
empty string.) -/
theorem readfile_short_cut :
    (∃ p', fsReadfile (exP (fun p => if p = 1 then some [104, 101, 108, 108, 111] else none) [.full, .full, .short 2] 1) 1 =
      .ok (some [104, 101, 0, 0, 0, 0], p')) ∧
    (∃ p', fsReadfile (exP (fun p => if p = 1 then some [104, 101, 108, 108, 111] else none) [.full, .full, .fail] 1) 1 =
      .ok (some [0, 0, 0, 0, 0, 0], p')) := ⟨⟨_, rfl⟩, ⟨_, rfl⟩⟩

/-- C69: What `fs_writefile` wrote to a new file `fs_readfile` reads. -/
theorem write_then_read_partial {p p' p'' : P} {path : Path} {text buf : Bytes} (ht : text.length ≤ 0x20000000) (hne : text ≠ [])
    (hold : p.k.files path = none) (hans : p'.k.ans = []) (h : fsWritefile p 0 path text = .ok ((text.length : Int), p'))
    (h' : fsReadfile p' path = .ok (some buf, p'')) : ∃ z, buf = text ++ List.replicate (z + 1) 0 :=
  readfile_exact_partial h' (writefile_exact_partial (by omega) hne h (by rw [hold]; simp)) ht hans

example : ∃ p' p'', fsWritefile (exP (fun _ => none) [] 1) 0 1 [110, 111] = .ok (2, p') ∧
    fsReadfile p' 1 = .ok (some [110, 111, 0, 0], p'') := ⟨_, _, rfl, rfl⟩

/-! ## C70: `fs_close` -/

/-- With one worker, `last_fd` is not positive or a descriptor that is not open. -/
def LastOk (p : P) : Prop := ∃ l, p.last = [l] ∧ (l ≤ 0 ∨ (0 < l ∧ look p.k.tbl l.toNat = none))

theorem kread_closed {k : K} {fd n m : Nat} (h : look k.tbl m = none) : look (kread k fd n).2.tbl m = none := by
  unfold kread
  cases hl : look k.tbl fd with
  | none => exact h
  | some o =>
    have hne : m ≠ fd := fun e => by rw [e, hl] at h; cases h
    have : ∀ o', look (put k.tbl fd o') m = none := fun o' => by
      rw [look_put _ (le_of_lt (look_lt hl)), if_neg hne]; exact h
    cases k.answer <;> first | exact h | exact this _

theorem kwrite_closed {k : K} {fd m : Nat} {d : Bytes} (h : look k.tbl m = none) : look (kwrite k fd d).2.tbl m = none := by
  unfold kwrite
  cases hl : look k.tbl fd with
  | none => exact h
  | some o =>
    have hne : m ≠ fd := fun e => by rw [e, hl] at h; cases h
    have : ∀ o', look (put k.tbl fd o') m = none := fun o' => by
      rw [look_put _ (le_of_lt (look_lt hl)), if_neg hne]; exact h
    cases k.answer <;> first | exact h | exact this _

theorem idx_one {p : P} {l : Int} (h : p.last = [l]) : p.idx = 0 := by
  unfold P.idx; rw [h]; exact Nat.mod_one _

theorem step_lastOk {p p' : P} (op : Op) (h : LastOk p) (e : step p op = .ok p') : LastOk p' := by
  obtain ⟨l, hl, hx⟩ := h
  have hi := idx_one hl
  cases op with
  | fopen q a b c =>
    cases ho : fsOpen p q a b c with
    | mk r p1 =>
      obtain ⟨_, _, h3⟩ := fsOpen_spec ho
      simp only [step, ho] at e
      cases e
      refine ⟨0, ?_, Or.inl le_rfl⟩
      rw [h3, hl, hi]; rfl
  | fclose fd =>
    simp only [step] at e
    cases e
    simp only [fsClose]
    split
    · exact ⟨-1, by simp [hl, hi], Or.inl (by decide)⟩
    · by_cases hneg : fd < 0
      · exact ⟨fd, by simp [hl, hi], Or.inl (le_of_lt hneg)⟩
      · simp only [if_neg hneg]
        refine ⟨fd, by simp [hl, hi], ?_⟩
        by_cases h0 : fd = 0
        · exact Or.inl (le_of_eq h0)
        · exact Or.inr ⟨by omega, kclose_closed _ _⟩
  | fread fd n =>
    simp only [step, fsRead] at e
    by_cases hneg : fd < 0
    · rw [if_pos hneg, Res.ok_bind] at e; cases e; exact ⟨l, hl, hx⟩
    · rw [if_neg hneg] at e
      have hc := fun m => @kread_closed p.k fd.toNat n.toNat m
      cases hk : kread p.k fd.toNat n.toNat with
      | mk r k1 =>
        rw [hk] at hc e
        have : LastOk (p.next k1) := ⟨l, hl, hx.imp id (fun h => ⟨h.1, hc _ h.2⟩)⟩
        cases r with
        | got d =>
          simp only at e
          split at e
          · cases e
          · cases e; exact this
        | intr => cases e; exact this
        | err => cases e; exact this
  | fwrite fd d =>
    simp only [step, fsWrite] at e
    by_cases hneg : fd < 0
    · rw [if_pos hneg, Res.ok_bind] at e; cases e; exact ⟨l, hl, hx⟩
    · rw [if_neg hneg] at e
      have hc := fun m => @kwrite_closed p.k fd.toNat m d
      cases hk : kwrite p.k fd.toNat d with
      | mk r k1 =>
        rw [hk] at hc e
        have : LastOk (p.next k1) := ⟨l, hl, hx.imp id (fun h => ⟨h.1, hc _ h.2⟩)⟩
        cases r with
        | got n =>
          simp only at e
          split at e
          · cases e
          · cases e; exact this
        | intr => cases e; exact this
        | err => cases e; exact this
  | filesize q =>
    simp only [step] at e
    cases e
    refine ⟨l, hl, ?_⟩
    have : (fsFilesize p q).2.k.tbl = p.k.tbl := by
      simp only [fsFilesize, P.next, kstat]
      cases p.k.answer <;> rfl
    rw [this]; exact hx

theorem run_lastOk (ops : List Op) {p p' : P} (h : LastOk p) (e : run p ops = .ok p') : LastOk p' := by
  induction ops generalizing p with
  | nil => cases e; exact h
  | cons op ops ih =>
    obtain ⟨q, h1, h2⟩ := Res.bind_eq_ok.1 e
    exact ih (step_lastOk op h h1) h2

/-- C70: With one worker thread, in every program of `fs_open`, `fs_close`, `fs_read`, `fs_write` and `fs_filesize` calls, `fs_close` of a
positive open descriptor closes it, and no other.  Missing for the full statement: pools of several workers, for which it is false
(`close_refused`), and descriptors opened by other calls than `fs_open`. -/
theorem close_closes_partial {k : K} (ops : List Op) {p : P} (hp : run ⟨k, [-1], 0⟩ ops = .ok p) {fd : Nat} (hpos : 0 < fd)
    {o : Open} (ho : look p.k.tbl fd = some o) :
    look (fsClose p fd).2.k.tbl fd = none ∧ (∀ fd', fd' ≠ fd → look (fsClose p fd).2.k.tbl fd' = look p.k.tbl fd') ∧
      (p.k.answer = .full → (fsClose p fd).1 = 0) := by
  obtain ⟨l, hl, hx⟩ : LastOk p := run_lastOk ops ⟨-1, rfl, Or.inl (by decide)⟩ hp
  have hi := idx_one hl
  have hne : ¬ (p.last[p.idx]? = some (fd : Int)) := by
    rw [hl, hi]
    intro h
    have : l = (fd : Int) := by simpa using h
    rcases hx with h | ⟨_, h⟩
    · omega
    · rw [this, Int.toNat_natCast, ho] at h; cases h
  have e := fsClose_nat hne
  rw [e]
  refine ⟨kclose_closed _ _, fun fd' h => (kclose_frame _ _).tbl fd' h, fun hA => ?_⟩
  rw [if_pos (kclose_calm ho (by rw [hA]; simp))]

/-- C70: With one worker thread, a second `fs_close` right after a successful one is refused and does nothing to the kernel. -/
theorem second_close_refused {p : P} (h1 : p.last.length = 1) {fd : Int} (h : (fsClose p fd).1 = 0) :
    (fsClose (fsClose p fd).2 fd).1 = -1 ∧ (fsClose (fsClose p fd).2 fd).2.k = (fsClose p fd).2.k := by
  obtain ⟨l, hl⟩ := List.length_eq_one_iff.1 h1
  have hi := idx_one hl
  have hne : ¬ (p.last[p.idx]? = some fd) := by
    intro hx
    unfold fsClose at h
    simp only at h
    rw [if_pos hx] at h
    cases h
  have hlast : (fsClose p fd).2.last = [fd] := by
    unfold fsClose
    simp only
    rw [if_neg hne]
    by_cases hn : fd < 0
    · simp only [if_pos hn, hl, hi]; rfl
    · simp only [if_neg hn, hl, hi]; rfl
  have hi' := idx_one hlast
  have : (fsClose p fd).2.last[(fsClose p fd).2.idx]? = some fd := by rw [hlast, hi']; rfl
  rw [fsClose_same this]
  exact ⟨rfl, rfl⟩

theorem lowest_put_none (t : List (Option Open)) (o : Open) :
    lowest (put (put t (lowest t) (some o)) (lowest t) none) = lowest t := by
  induction t with
  | nil => rfl
  | cons a t ih =>
    cases a with
    | none => rfl
    | some x => simp only [lowest, put, ih]

theorem filesizes (q : Path) (ops : List Op) (m : Nat) (p : P) (h : p.k.ans = []) :
    run p (List.replicate m (Op.filesize q) ++ ops) = run { p with cnt := p.cnt + m } ops := by
  induction m generalizing p with
  | zero => rfl
  | succ m ih =>
    rw [List.replicate_succ, List.cons_append]
    have e : step p (.filesize q) = .ok { p with cnt := p.cnt + 1 } := by
      obtain ⟨⟨files, tbl, ans⟩, last, cnt⟩ := p
      simp only at h
      subst h
      rfl
    show (step p (.filesize q) >>= fun x => run x (List.replicate m (Op.filesize q) ++ ops)) = _
    rw [e, Res.ok_bind, ih { p with cnt := p.cnt + 1 } h]
    simp only [Nat.add_assoc, Nat.add_comm 1 m]

/-- C70 is false with two or more workers: after opening and closing a file, asking for a size `n - 2` times and opening the file again,
`fs_close` of the open descriptor returns -1 and leaves it open, though the kernel refuses nothing. -/
theorem close_refused {n : Nat} (hn : 2 ≤ n) {k : K} (hans : k.ans = []) {path : Path} {c : Bytes} (hc : k.files path = some c)
    : ∃ p, run ⟨k, List.replicate n (-1), 0⟩ ([Op.fopen path false false false, .fclose (lowest k.tbl : Nat)] ++
      (List.replicate (n - 2) (Op.filesize path) ++ [Op.fopen path false false false])) = .ok p ∧
    look p.k.tbl (lowest k.tbl) = some ⟨path, 0⟩ ∧ (fsClose p (lowest k.tbl : Nat)).1 = -1 ∧
      look (fsClose p (lowest k.tbl : Nat)).2.k.tbl (lowest k.tbl) = some ⟨path, 0⟩ := by
  obtain ⟨files, tbl, ans⟩ := k
  simp only at hans hc
  subst hans
  have hopen : ∀ tb la cn, step ⟨⟨files, tb, []⟩, la, cn⟩ (.fopen path false false false) =
      .ok ⟨⟨files, put tb (lowest tb) (some ⟨path, 0⟩), []⟩, la.set (cn % la.length) 0, cn + 1⟩ := by
    intro tb la cn
    simp only [step, fsOpen, kopen, K.answer, K.pop, List.headD_nil, hc, Bool.false_and, Bool.false_eq_true, if_false,
      P.next, P.idx, List.tail_nil]
  have hlk : look (put tbl (lowest tbl) (some ⟨path, 0⟩)) (lowest tbl) = some ⟨path, 0⟩ := by
    rw [look_put _ (lowest_le _), if_pos rfl]
  have h1 : 1 % n = 1 := Nat.mod_eq_of_lt (by omega)
  have h0 : 0 % n = 0 := Nat.zero_mod n
  have e2 : step ⟨⟨files, put tbl (lowest tbl) (some ⟨path, 0⟩), []⟩,
      (List.replicate n (-1 : Int)).set (0 % (List.replicate n (-1 : Int)).length) 0, 0 + 1⟩ (.fclose (lowest tbl : Nat)) =
      .ok ⟨⟨files, put (put tbl (lowest tbl) (some ⟨path, 0⟩)) (lowest tbl) none, []⟩,
        ((List.replicate n (-1 : Int)).set 0 0).set 1 (lowest tbl : Nat), 2⟩ := by
    have hx : ¬ (((List.replicate n (-1 : Int)).set 0 0)[1]? = some ((lowest tbl : Nat) : Int)) := by
      rw [List.getElem?_set_ne (by decide), List.getElem?_replicate, if_pos (by omega)]
      intro h
      have := Option.some.inj h
      omega
    rw [step, fsClose_nat (by simpa only [P.idx, List.length_set, List.length_replicate, h0, Nat.zero_add, h1] using hx)]
    simp only [P.idx, List.length_set, List.length_replicate, h0, Nat.zero_add, h1, kclose, hlk, P.next, K.pop, List.tail_nil]
  have hcnt : 2 + (n - 2) = n := by omega
  obtain ⟨p, hp⟩ : ∃ p : P, p = ⟨⟨files, put (put (put tbl (lowest tbl) (some ⟨path, 0⟩)) (lowest tbl) none) (lowest tbl) (some ⟨path, 0⟩), []⟩,
      (((List.replicate n (-1 : Int)).set 0 0).set 1 (lowest tbl : Nat)).set 0 0, n + 1⟩ := ⟨_, rfl⟩
  have hrun : run ⟨⟨files, tbl, []⟩, List.replicate n (-1), 0⟩ ([Op.fopen path false false false, .fclose (lowest tbl : Nat)] ++
      (List.replicate (n - 2) (Op.filesize path) ++ [Op.fopen path false false false])) = .ok p := by
    show (step _ _ >>= fun x => step x _ >>= fun y =>
      run y (List.replicate (n - 2) (Op.filesize path) ++ [Op.fopen path false false false])) = _
    rw [hopen, Res.ok_bind, e2, Res.ok_bind, filesizes path _ (n - 2) _ rfl]
    show (step _ _ >>= fun x => run x []) = _
    rw [hopen, Res.ok_bind, hp]
    simp only [lowest_put_none, List.length_set, List.length_replicate, hcnt, Nat.mod_self, run]
  refine ⟨p, hrun, ?_⟩
  have htbl : look p.k.tbl (lowest tbl) = some ⟨path, 0⟩ := by
    rw [hp]
    show look (put _ _ _) _ = _
    rw [look_put _ _, if_pos rfl]
    have := look_lt hlk
    have hlen : ∀ (t : List (Option Open)) m o, t.length ≤ (put t m o).length := by
      intro t
      induction t with
      | nil => intro m o; simp
      | cons a t ih =>
        intro m o
        cases m with
        | zero => simp [put]
        | succ m => simpa [put] using ih m o
    have := hlen (put tbl (lowest tbl) (some ⟨path, 0⟩)) (lowest tbl) none
    omega
  have hidx : p.last[p.idx]? = some ((lowest tbl : Nat) : Int) := by
    rw [hp]
    have : ∀ (a b : Nat), 2 ≤ b → (b + 1) % b = 1 := fun _ b hb => by
      rw [Nat.add_mod_left]; exact Nat.mod_eq_of_lt (by omega)
    simp only [P.idx, List.length_set, List.length_replicate, this 0 n hn]
    rw [List.getElem?_set_ne (by decide), List.getElem?_set_self (by simp; omega)]
  refine ⟨htbl, ?_⟩
  rw [fsClose_same hidx]
  exact ⟨rfl, htbl⟩

example : ∃ (k : K) (o : Open), ∃ p, run ⟨k, [-1], 0⟩ [Op.fopen 1 false false false] = .ok p ∧ look p.k.tbl 3 = some o :=
  ⟨⟨fun _ => some [5], [some ⟨0, 0⟩, some ⟨0, 0⟩, some ⟨0, 0⟩], []⟩, ⟨1, 0⟩, _, rfl, rfl⟩

/-- Two workers: open, close, open, close; the second close is refused. -/
example : ∃ p, run (exP (fun _ => some [5]) [] 2) [Op.fopen 1 false false false, .fclose 3, .fopen 1 false false false] = .ok p ∧
    (fsClose p 3).1 = -1 := ⟨_, rfl, rfl⟩

example : ∃ p, run (exP (fun _ => some [5]) [] 1) [Op.fopen 1 false false false, .fclose 3, .fopen 1 false false false] = .ok p ∧
    (fsClose p 3).1 = 0 := ⟨_, rfl, rfl⟩

end Verif.Fs
