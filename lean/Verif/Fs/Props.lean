import Verif.Fs.Lemmas

/-!
# Properties of the file helpers (C66 - C70)
-/

namespace Verif.Fs

/-- Every descriptor refers to what it did before. -/
def SameFds (k k' : K) : Prop := ∀ fd, look k'.tbl fd = look k.tbl fd

/-- Every file other than `p` is as before. -/
def OthersSame (k k' : K) (p : Path) : Prop := ∀ q, q ≠ p → k'.files q = k.files q

/-! ## C67: `os_copyfile` -/

theorem osCopyfile_cases (k : K) (src dst : Path) :
    ∃ r k', osCopyfile k src dst = some (r, k') ∧ SameFds k k' ∧ OthersSame k k' dst ∧ (r = 0 ∨ r = -1) ∧
      ((r = -1 ∧ k'.files dst = k.files dst) ∨
        ∃ c n, k.files src = some c ∧ k.files dst = none ∧ n ≤ c.length ∧ k'.files dst = some (c.take n) ∧
          (r = 0 → n = c.length)) ∧
      (Calm k → (k.files src).isSome → k.files dst = none → r = 0) := by
  unfold osCopyfile
  cases h1 : kopen k src false false false with
  | mk r1 k1 =>
  rcases kopen_spec h1 with ⟨rfl, rfl⟩ | ⟨rfl, hl1, hf1, hn1, hc1, he1, fr1⟩
  · refine ⟨-1, _, rfl, fun _ => rfl, fun _ _ => rfl, Or.inr rfl, Or.inl ⟨rfl, rfl⟩, fun cm hs hd => ?_⟩
    have := kopen_calm (p := src) (creat := false) (excl := false) (trunc := false) cm.answer
      (fun h => by rw [h] at hs; cases hs) (fun _ h => by cases h.1)
    rw [h1] at this; cases this
  · have hsome : (k.files src).isSome := by
      cases h : k.files src with
      | none => exact absurd (hc1 h) (by decide)
      | some c => rfl
    obtain ⟨c, hc⟩ := Option.isSome_iff_exists.1 hsome
    have hfs : k1.files src = some c := by rw [hf1, hc]; rfl
    have hfiles : ∀ q, k1.files q = k.files q := by
      intro q
      by_cases hq : q = src
      · subst hq; rw [hfs, hc]
      · exact fr1.files q hq
    simp only
    cases h2 : kopen k1 dst true true false with
    | mk r2 k2 =>
    rcases kopen_spec h2 with ⟨rfl, rfl⟩ | ⟨rfl, hl2, hf2, hn2, hc2, he2, fr2⟩
    · refine ⟨-1, _, rfl, fun fd => ?_, fun q _ => ?_, Or.inr rfl, Or.inl ⟨rfl, ?_⟩, fun cm hs hd => ?_⟩
      · by_cases hfd : fd = lowest k.tbl
        · rw [hfd, look_lowest]; exact kclose_closed _ _
        · rw [(kclose_frame _ _).tbl fd hfd]; exact fr1.tbl fd hfd
      · rw [(kclose_frame _ _).files q not_false]; exact hfiles q
      · rw [(kclose_frame _ _).files dst not_false]; exact hfiles dst
      · have := kopen_calm (p := dst) (creat := true) (excl := true) (trunc := false) (fr1.calm cm).answer (fun _ => rfl)
          (fun h => by rw [hfiles, hd] at h; cases h)
        rw [h2] at this; cases this
    · have hdn : k.files dst = none := by
        rw [← hfiles]
        cases h : k1.files dst with
        | none => rfl
        | some x => exact absurd ⟨rfl, rfl⟩ (he2 (by rw [h]; rfl))
      have hpp : src ≠ dst := fun h => by rw [h, hdn] at hc; cases hc
      have hne : lowest k.tbl ≠ lowest k1.tbl := fun h => by
        have := look_lowest k1.tbl
        rw [← h, hl1] at this; cases this
      have hs2 : look k2.tbl (lowest k.tbl) = some ⟨src, 0⟩ := by rw [fr2.tbl _ hne]; exact hl1
      have hfs2 : k2.files src = some c := by rw [fr2.files _ hpp]; exact hfs
      have hfd2 : k2.files dst = some (c.take 0) := by rw [hf2, hfiles, hdn]; rfl
      obtain ⟨g1, g2⟩ := copyLoop_spec (k2.size src + k2.ans.length + 2) k2 (lowest k.tbl) (lowest k1.tbl) src dst c 0 hne hpp
        hs2 hl2 hfs2 hfd2 (Nat.zero_le _)
      simp only
      cases hcl : copyLoop (k2.size src + k2.ans.length + 2) k2 (lowest k.tbl) (lowest k1.tbl) with
      | none => exact absurd hcl (g2 (by simp [K.size, hfs2]; omega))
      | some q =>
        obtain ⟨r, k'⟩ := q
        obtain ⟨a1, ⟨n, b1, b2, b3, b4⟩, a3, a4, a5, a6⟩ := g1 r k' hcl
        refine ⟨r, k', rfl, fun fd => ?_, fun q hq => ?_, a1, Or.inr ⟨c, n, hc, hdn, b2, b3, b4⟩,
          fun cm _ _ => a6 (fr2.calm (fr1.calm cm))⟩
        · by_cases e1 : fd = lowest k.tbl
          · rw [e1, a4, look_lowest]
          · by_cases e2 : fd = lowest k1.tbl
            · have : look k.tbl fd = look k1.tbl fd := (fr1.tbl fd e1).symm
              rw [this, e2, a5, look_lowest]
            · rw [a3.tbl fd (fun h => h.elim e1 e2), fr2.tbl fd e2, fr1.tbl fd e1]
        · rw [a3.files q hq, fr2.files q hq, hfiles]

/-- C67: `os_copyfile` returns, whatever short transfers, interruptions and failures occur. -/
theorem os_copy_terminates (k : K) (src dst : Path) : osCopyfile k src dst ≠ none := by
  obtain ⟨r, k', h, _⟩ := osCopyfile_cases k src dst
  rw [h]; exact nofun

/-- C67: When `os_copyfile` returns 0 the destination did not exist before and now holds exactly what the source holds; nothing else
has changed and no descriptor is left open - whatever short reads, short writes and interrupted writes happened. -/
theorem os_copy_exact {k k' : K} {src dst : Path} (h : osCopyfile k src dst = some (0, k')) :
    (∃ c, k.files src = some c ∧ k'.files dst = some c) ∧ k.files dst = none ∧ OthersSame k k' dst ∧ SameFds k k' := by
  obtain ⟨r, k1, h1, hs, ho, _, hx, _⟩ := osCopyfile_cases k src dst
  rw [h] at h1
  cases h1
  rcases hx with ⟨h0, _⟩ | ⟨c, n, hc, hd, hn, hf, h0⟩
  · cases h0
  · have := h0 rfl
    subst this
    rw [List.take_length] at hf
    exact ⟨⟨c, hc, hf⟩, hd, ho, hs⟩

/-- C67: Otherwise it returns -1; an existing destination is untouched, a new one holds a beginning of the source, and no descriptor
is left open. -/
theorem os_copy_failed {k k' : K} {src dst : Path} {r : Int} (h : osCopyfile k src dst = some (r, k')) (hr : r ≠ 0) :
    r = -1 ∧ OthersSame k k' dst ∧ SameFds k k' ∧ (k'.files dst = k.files dst ∨
      (k.files dst = none ∧ ∃ c n, k.files src = some c ∧ k'.files dst = some (c.take n))) := by
  obtain ⟨r1, k1, h1, hs, ho, h01, hx, _⟩ := osCopyfile_cases k src dst
  rw [h] at h1
  cases h1
  refine ⟨h01.resolve_left hr, ho, hs, ?_⟩
  rcases hx with ⟨_, h2⟩ | ⟨c, n, hc, hd, hn, hf, _⟩
  · exact Or.inl h2
  · exact Or.inr ⟨hd, c, n, hc, hf⟩

/-- C67: It does copy an existing file to a new one when no call fails, however short the transfers are. -/
theorem os_copy_succeeds {k : K} {src dst : Path} (hc : ∀ a ∈ k.ans, a ≠ .intr ∧ a ≠ .fail) (hs : (k.files src).isSome)
    (hd : k.files dst = none) : ∃ k', osCopyfile k src dst = some (0, k') := by
  obtain ⟨r, k1, h1, _, _, _, _, h⟩ := osCopyfile_cases k src dst
  have := h hc hs hd
  subst this
  exact ⟨k1, h1⟩

/-- Three bytes, copied with a read of two bytes, an interrupted write, and writes of nothing and of one byte. -/
def exK : K := ⟨fun p => if p = 1 then some [7, 8, 9] else none, [some ⟨0, 0⟩, some ⟨0, 0⟩, some ⟨0, 0⟩],
  [.full, .full, .short 2, .intr, .short 0, .short 1]⟩

example : ∃ k', osCopyfile exK 1 2 = some (0, k') ∧ k'.files 2 = some [7, 8, 9] := by
  refine ⟨_, rfl, ?_⟩
  decide

example : ∃ k', osCopyfile { exK with ans := [.full, .full, .short 2, .full, .fail] } 1 2 = some (-1, k') ∧
    k'.files 2 = some [7, 8] := by
  refine ⟨_, rfl, ?_⟩
  decide

/-! ## C66: `fs_copyfile` -/

theorem kopen_ans (k : K) (p : Path) (a b c : Bool) : (kopen k p a b c).2.ans = k.ans.tail := by
  unfold kopen
  cases k.answer <;> cases k.files p <;> cases a <;> cases b <;> cases c <;> rfl

/-- What the first transfer moves: the fourth system call. -/
def firstMoved (k : K) (n : Nat) : Nat := moved ((k.ans.drop 3).headD .full) 1 n

theorem copyfile_cases (k : K) (src dst : Path) :
    ∃ r k', copyfile k src dst = some (r, k') ∧ SameFds k k' ∧ OthersSame k k' dst ∧ (r = 0 ∨ r = -1) ∧
      (r = 0 → ∃ c, k.files src = some c ∧ (src = dst → k'.files dst = some []) ∧
        (src ≠ dst → ∃ e, k'.files dst = some e ∧ (firstMoved k c.length = c.length → e = c) ∧
          (firstMoved k c.length < c.length → e.length < c.length))) ∧
      (Calm k → (k.files src).isSome → r = 0) := by
  unfold copyfile
  cases h1 : kopen k src false false false with
  | mk r1 k1 =>
  have ha1 : k1.ans = k.ans.tail := by have := kopen_ans k src false false false; rwa [h1] at this
  rcases kopen_spec h1 with ⟨rfl, rfl⟩ | ⟨rfl, hl1, hf1, hn1, hc1, he1, fr1⟩
  · refine ⟨-1, _, rfl, fun _ => rfl, fun _ _ => rfl, Or.inr rfl, (fun h => by cases h), fun cm hs => ?_⟩
    have := kopen_calm (p := src) (creat := false) (excl := false) (trunc := false) cm.answer
      (fun h => by rw [h] at hs; cases hs) (fun _ h => by cases h.1)
    rw [h1] at this; cases this
  · have hsome : (k.files src).isSome := by
      cases h : k.files src with
      | none => exact absurd (hc1 h) (by decide)
      | some c => rfl
    obtain ⟨c, hc⟩ := Option.isSome_iff_exists.1 hsome
    have hfs : k1.files src = some c := by rw [hf1, hc]; rfl
    have hfiles : ∀ q, k1.files q = k.files q := by
      intro q
      by_cases hq : q = src
      · subst hq; rw [hfs, hc]
      · exact fr1.files q hq
    simp only
    cases h2 : kopen k1 dst true false true with
    | mk r2 k2 =>
    have ha2 : k2.ans = k.ans.tail.tail := by have := kopen_ans k1 dst true false true; rwa [h2, ha1] at this
    rcases kopen_spec h2 with ⟨rfl, rfl⟩ | ⟨rfl, hl2, hf2, hn2, hc2, he2, fr2⟩
    · refine ⟨-1, _, rfl, fun fd => ?_, fun q _ => ?_, Or.inr rfl, (fun h => by cases h), fun cm hs => ?_⟩
      · by_cases hfd : fd = lowest k.tbl
        · rw [hfd, look_lowest]; exact kclose_closed _ _
        · rw [(kclose_frame _ _).tbl fd hfd]; exact fr1.tbl fd hfd
      · rw [(kclose_frame _ _).files q not_false]; exact hfiles q
      · have := kopen_calm (p := dst) (creat := true) (excl := false) (trunc := true) (fr1.calm cm).answer (fun _ => rfl)
          (fun _ h => by cases h.2)
        rw [h2] at this; cases this
    · have hne : lowest k.tbl ≠ lowest k1.tbl := fun h => by
        have := look_lowest k1.tbl
        rw [← h, hl1] at this; cases this
      have hs2 : look k2.tbl (lowest k.tbl) = some ⟨src, 0⟩ := by rw [fr2.tbl _ hne]; exact hl1
      have hfd2 : k2.files dst = some [] := hf2
      -- closing both descriptors at the end
      have fin : ∀ k3, Frame k2 k3 (· = lowest k1.tbl) (· = dst) →
          SameFds k (kclose (kclose k3 (lowest k.tbl)).2 (lowest k1.tbl)).2 ∧
          OthersSame k (kclose (kclose k3 (lowest k.tbl)).2 (lowest k1.tbl)).2 dst ∧
          ∀ q, (kclose (kclose k3 (lowest k.tbl)).2 (lowest k1.tbl)).2.files q = k3.files q := by
        intro k3 fr3
        have hq : ∀ q, (kclose (kclose k3 (lowest k.tbl)).2 (lowest k1.tbl)).2.files q = k3.files q := fun q => by
          rw [(kclose_frame _ _).files q not_false, (kclose_frame _ _).files q not_false]
        refine ⟨fun fd => ?_, fun q hqd => ?_, hq⟩
        · by_cases e2 : fd = lowest k1.tbl
          · have e1 : fd ≠ lowest k.tbl := fun h => hne (h.symm.trans e2)
            have : look k.tbl fd = look k1.tbl fd := (fr1.tbl fd e1).symm
            rw [this, e2, look_lowest]; exact kclose_closed _ _
          · rw [(kclose_frame _ _).tbl fd e2]
            by_cases e1 : fd = lowest k.tbl
            · rw [e1, look_lowest]; exact kclose_closed _ _
            · rw [(kclose_frame _ _).tbl fd e1, fr3.tbl fd e2, fr2.tbl fd e2, fr1.tbl fd e1]
        · rw [hq, fr3.files q hqd, fr2.files q hqd, hfiles]
      simp only
      cases h3 : kstat k2 src with
      | mk r3 k3 =>
      have hk3 : k3 = k2.pop := by
        have : k3 = (kstat k2 src).2 := by rw [h3]
        rw [this]; unfold kstat
        cases k2.answer <;> rfl
      subst hk3
      have hr3 : (r3 = none ∧ ¬ Calm k2) ∨ r3 = (k2.files src).map List.length := by
        have : r3 = (kstat k2 src).1 := by rw [h3]
        rw [this]; unfold kstat
        cases hA : k2.answer with
        | full => exact Or.inr rfl
        | short n => exact Or.inr rfl
        | intr => exact Or.inl ⟨rfl, fun cm => cm.answer.1 hA⟩
        | fail => exact Or.inl ⟨rfl, fun cm => cm.answer.2 hA⟩
      rcases hr3 with ⟨rfl, hncalm⟩ | hr3
      · obtain ⟨a1, a2, a3⟩ := fin k2.pop (pop_frame _)
        exact ⟨-1, _, rfl, a1, a2, Or.inr rfl, (fun h => by cases h), fun cm _ => absurd (fr2.calm (fr1.calm cm)) hncalm⟩
      · by_cases hpp : src = dst
        · have hr0 : r3 = some 0 := by rw [hr3, hpp, hfd2]; rfl
          subst hr0
          obtain ⟨a1, a2, a3⟩ := fin k2.pop (pop_frame _)
          refine ⟨0, _, rfl, a1, a2, Or.inl rfl, fun _ => ⟨c, hc, fun _ => ?_, fun h => absurd hpp h⟩, fun _ _ => rfl⟩
          rw [a3]; exact hfd2
        · have hfs2 : k2.files src = some c := by rw [fr2.files _ hpp]; exact hfs
          have hr0 : r3 = some c.length := by rw [hr3, hfs2]; rfl
          subst hr0
          simp only
          have hlo : look k2.pop.tbl (lowest k1.tbl) = some ⟨dst, ([] : Bytes).length⟩ := hl2
          obtain ⟨g1, g2⟩ := sendLoop_spec (c.length + 1) k2.pop (lowest k1.tbl) (lowest k.tbl) src dst 0 c [] (Ne.symm hne) hpp
            hlo hs2 hfs2 hfd2
          have hcalm2 : Calm k → Calm k2.pop := fun cm =>
            (pop_frame k2 (F := fun _ => False) (Q := fun _ => False)).calm (fr2.calm (fr1.calm cm))
          simp only [List.length_nil, Nat.mul_zero] at g1 g2
          cases hsl : sendLoop (c.length + 1) k2.pop (lowest k1.tbl) (lowest k.tbl) c.length 0 with
          | none => exact absurd hsl (g2 (by omega))
          | some q =>
            obtain ⟨r, k4⟩ := q
            obtain ⟨⟨e, b1, b2, b3, b4, b5⟩, fr4, cm4⟩ := g1 r k4 hsl
            obtain ⟨a1, a2, a3⟩ := fin k4 ((pop_frame k2).trans fr4)
            simp only
            refine ⟨_, _, rfl, a1, a2, ?_, fun hr => ⟨c, hc, fun h => absurd h hpp, fun _ => ⟨e, ?_, ?_, ?_⟩⟩, fun cm _ => ?_⟩
            · cases r <;> simp
            · rw [a3]; exact b1
            · -- the first transfer was complete
              intro hm
              have hrt : r = true := by
                cases r with
                | true => rfl
                | false => cases hr
              subst hrt
              by_cases h0 : c.length = 0
              · have he0 : e = [] := b3 (by omega)
                rw [he0, List.eq_nil_of_length_eq_zero h0]
              · rcases ksendfile_at (off := 0) hlo hs2 hfs2 hfd2 with ⟨m, k5, hs, hm5, hpos, hl5, hf5, fr5, _, hmv⟩ | ⟨hs, _⟩
                · have hmc : m = c.length := by
                    rw [hmv, ← hm]
                    simp only [firstMoved, K.answer, K.pop, ha2, Nat.sub_zero]
                    congr 1
                    cases k.ans with
                    | nil => rfl
                    | cons x l => cases l with
                      | nil => rfl
                      | cons y l => cases l <;> rfl
                  rw [hmc, List.drop_zero, List.take_length, List.nil_append] at hf5 hl5
                  have e1 : sendLoop (c.length + 1) k2.pop (lowest k1.tbl) (lowest k.tbl) c.length 0 =
                      sendLoop c.length k5 (lowest k1.tbl) (lowest k.tbl) c.length (2 * c.length) := by
                    rw [sendLoop, if_pos (by omega), hs]
                    simp only
                    rw [hmc, Nat.zero_add, ← Nat.two_mul]
                  rw [e1] at hsl
                  have g := (sendLoop_spec c.length k5 (lowest k1.tbl) (lowest k.tbl) src dst 0 c c (Ne.symm hne) hpp hl5
                    (by rw [fr5.tbl _ hne]; exact hs2) (by rw [fr5.files _ hpp]; exact hfs2) hf5).1 _ _ hsl
                  obtain ⟨⟨e', d1, _, d3, _⟩, _⟩ := g
                  rw [b1] at d1
                  cases d1
                  exact d3 (by omega)
                · exfalso
                  rcases hs with hs | hs <;>
                  · rw [sendLoop, if_pos (by omega), hs] at hsl
                    cases hsl
            · intro hm
              have h0 : 0 < c.length := by omega
              rcases ksendfile_at (off := 0) hlo hs2 hfs2 hfd2 with ⟨m, k5, hs, hm5, hpos, hl5, hf5, fr5, _, hmv⟩ | ⟨hs, _⟩
              · have hmc : m < c.length := by
                  have : m = firstMoved k c.length := by
                    rw [hmv]
                    simp only [firstMoved, K.answer, K.pop, ha2, Nat.sub_zero]
                    congr 1
                    cases k.ans with
                    | nil => rfl
                    | cons x l => cases l with
                      | nil => rfl
                      | cons y l => cases l <;> rfl
                  rw [this]; exact hm
                have hlen : ([] ++ (c.drop 0).take m).length = m := by simp; omega
                have e1 : sendLoop (c.length + 1) k2.pop (lowest k1.tbl) (lowest k.tbl) c.length 0 =
                    sendLoop c.length k5 (lowest k1.tbl) (lowest k.tbl) c.length (2 * ([] ++ (c.drop 0).take m).length) := by
                  rw [sendLoop, if_pos (by omega), hs, hlen]
                  simp only
                  rw [Nat.zero_add, ← Nat.two_mul]
                rw [e1] at hsl
                have g := (sendLoop_spec c.length k5 (lowest k1.tbl) (lowest k.tbl) src dst 0 c _ (Ne.symm hne) hpp hl5
                  (by rw [fr5.tbl _ hne]; exact hs2) (by rw [fr5.files _ hpp]; exact hfs2) hf5).1 _ _ hsl
                obtain ⟨⟨e', d1, _, d3, d4, _⟩, _⟩ := g
                rw [b1] at d1
                cases d1
                exact d4 (by rw [hlen]; exact hpos h0) (by rw [hlen]; exact hmc)
              · exfalso
                rcases hs with hs | hs <;>
                · rw [sendLoop, if_pos (by omega), hs] at hsl
                  cases hsl
                  simp at hr
            · rw [cm4 (hcalm2 cm)]; rfl

/-- C66: `fs_copyfile` returns 0 or -1 and leaves every other file and every descriptor as it was. -/
theorem copy_keeps_rest (k : K) (src dst : Path) :
    ∃ r k', copyfile k src dst = some (r, k') ∧ (r = 0 ∨ r = -1) ∧ SameFds k k' ∧ OthersSame k k' dst := by
  obtain ⟨r, k', h, a, b, c, _⟩ := copyfile_cases k src dst
  exact ⟨r, k', h, c, a, b⟩

/-- C66: When it returns 0, the destination is another file, the source is at most 0x7ffff000 bytes long and the kernel moves no
less than it can, the destination holds exactly what the source holds.  Missing for the full statement ("when it returns 0 the
destination holds what the source holds"): the three cases in which that is false, below. -/
theorem copy_exact_partial {k k' : K} {src dst : Path} {c : Bytes} (h : copyfile k src dst = some (0, k')) (hne : src ≠ dst)
    (hc : k.files src = some c) (hlen : c.length ≤ 0x7ffff000) (hfull : ∀ a ∈ k.ans, ∀ n, a ≠ .short n) :
    k'.files dst = some c := by
  obtain ⟨r, k1, h1, _, _, _, hx, _⟩ := copyfile_cases k src dst
  rw [h] at h1
  cases h1
  obtain ⟨c', hc', _, hx⟩ := hx rfl
  rw [hc] at hc'
  cases hc'
  obtain ⟨e, he, hx, _⟩ := hx hne
  rw [he, hx]
  have hA : ∀ n, (k.ans.drop 3).headD .full ≠ .short n := by
    intro n
    cases hd : k.ans.drop 3 with
    | nil => simp
    | cons a l => exact hfull a (List.mem_of_mem_drop (by rw [hd]; simp)) n
  have hm : (0x7ffff000 : Nat) = maxRw := rfl
  unfold firstMoved moved
  split
  · rename_i n hn; exact absurd hn (hA n)
  · omega

/-- C66 is false for large files: a source of more than 0x7ffff000 bytes is reported as copied (0) though the destination is
shorter, with a kernel that never fails. -/
theorem copy_large_loses_bytes {k : K} {src dst : Path} {c : Bytes} (hne : src ≠ dst) (hc : k.files src = some c)
    (hlen : 0x7ffff000 < c.length) (hans : k.ans = []) :
    ∃ k' e, copyfile k src dst = some (0, k') ∧ k'.files dst = some e ∧ e.length < c.length := by
  obtain ⟨r, k1, h1, _, _, _, hx, hr⟩ := copyfile_cases k src dst
  have : r = 0 := hr (fun a ha => by rw [hans] at ha; cases ha) (by rw [hc]; rfl)
  subst this
  obtain ⟨c', hc', _, hx⟩ := hx rfl
  rw [hc] at hc'
  cases hc'
  obtain ⟨e, he, _, hx⟩ := hx hne
  refine ⟨k1, e, h1, he, hx ?_⟩
  have hm : (0x7ffff000 : Nat) = maxRw := rfl
  simp only [firstMoved, hans, moved, List.drop_nil, List.headD_nil]
  omega

/-- C66 is false for short transfers: if the first `sendfile` moves only `n` bytes of a longer file, bytes are lost and 0 is
returned. -/
theorem copy_short_loses_bytes {k : K} {src dst : Path} {c : Bytes} {n : Nat} (hne : src ≠ dst) (hc : k.files src = some c)
    (hlen : n < c.length) (h1 : 1 < c.length) (hans : k.ans = [.full, .full, .full, .short n]) :
    ∃ k' e, copyfile k src dst = some (0, k') ∧ k'.files dst = some e ∧ e.length < c.length := by
  obtain ⟨r, k1, h, _, _, _, hx, hr⟩ := copyfile_cases k src dst
  have : r = 0 := hr (fun a ha => by rw [hans] at ha; simp at ha; rcases ha with rfl | rfl <;> simp) (by rw [hc]; rfl)
  subst this
  obtain ⟨c', hc', _, hx⟩ := hx rfl
  rw [hc] at hc'
  cases hc'
  obtain ⟨e, he, _, hx⟩ := hx hne
  refine ⟨k1, e, h, he, hx ?_⟩
  simp only [firstMoved, hans, moved, List.drop_succ_cons, List.drop_zero, List.headD_cons]
  omega

/-- C66 is false for a file copied onto itself: it is emptied, and 0 is returned. -/
theorem copy_onto_itself_empties {k : K} {p : Path} (hc : (k.files p).isSome) (hans : ∀ a ∈ k.ans, a ≠ .intr ∧ a ≠ .fail) :
    ∃ k', copyfile k p p = some (0, k') ∧ k'.files p = some [] := by
  obtain ⟨r, k1, h, _, _, _, hx, hr⟩ := copyfile_cases k p p
  have : r = 0 := hr hans hc
  subst this
  obtain ⟨c, _, hx, _⟩ := hx rfl
  exact ⟨k1, h, hx rfl⟩

/-- Seven bytes; the first `sendfile` moves two, the second begins at offset 4. -/
example : ∃ k', copyfile ⟨fun p => if p = 1 then some [1, 2, 3, 4, 5, 6, 7] else none, [some ⟨0, 0⟩],
    [.full, .full, .full, .short 2]⟩ 1 2 = some (0, k') ∧ k'.files 2 = some [1, 2, 5, 6, 7] := by
  refine ⟨_, rfl, ?_⟩
  decide

example : ∃ k', copyfile { exK with ans := [] } 1 2 = some (0, k') ∧ k'.files 2 = some [7, 8, 9] := by
  refine ⟨_, rfl, ?_⟩
  decide

end Verif.Fs
