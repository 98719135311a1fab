import Verif.Str.Path
import Verif.Str.MiscLemmas

namespace Verif.Str

theorem rd_at {a : Bytes} {x : UInt8} {t : Bytes} {i : Nat} (h : i = a.length) : rd (a ++ x :: t) i = .ok x := by
  subst h; simp [rd]

theorem wr_at {a : Bytes} {x v : UInt8} {t : Bytes} {i : Nat} (h : i = a.length) :
    wr (a ++ x :: t) i v = .ok (a ++ v :: t) := by
  subst h; simp [wr]

theorem memrchr_none (c : UInt8) (q : Bytes) : ∀ (y t : Bytes), c ∉ y → memrchr (q ++ y ++ t) q.length c y.length = .ok none := by
  intro y
  induction y using List.reverseRecOn with
  | nil => intros; rfl
  | append_singleton y a ih =>
    intro t h
    have ha : a ≠ c := by rintro rfl; simp at h
    rw [List.length_append, List.length_singleton]
    unfold memrchr
    rw [show q ++ (y ++ [a]) ++ t = (q ++ y) ++ a :: t by simp, rd_at (by simp)]
    simp only [Res.ok_bind, if_neg ha]
    exact ih (a :: t) (fun hc => h (List.mem_append_left _ hc))

theorem memrchr_some (c : UInt8) (q x : Bytes) : ∀ (y t : Bytes), c ∉ y →
    memrchr (q ++ x ++ c :: (y ++ t)) q.length c (x.length + 1 + y.length) = .ok (some (q.length + x.length)) := by
  intro y
  induction y using List.reverseRecOn with
  | nil =>
    intro t _
    simp only [List.length_nil, Nat.add_zero, List.nil_append]
    unfold memrchr
    rw [rd_at (by simp)]
    simp only [Res.ok_bind, if_true]
  | append_singleton y a ih =>
    intro t h
    have ha : a ≠ c := by rintro rfl; simp at h
    rw [List.length_append, List.length_singleton, ← Nat.add_assoc]
    unfold memrchr
    rw [show q ++ x ++ c :: (y ++ [a] ++ t) = (q ++ x ++ c :: y) ++ a :: t by simp, rd_at (by simp; omega)]
    simp only [Res.ok_bind, if_neg ha]
    have := ih (a :: t) (fun hc => h (List.mem_append_left _ hc))
    rwa [show q ++ x ++ c :: (y ++ a :: t) = (q ++ x ++ c :: y) ++ a :: t by simp] at this

theorem strAt_z {s z : Bytes} (hs : NulFree s) : strAt (s ++ 0 :: z) 0 = .ok s :=
  strAt_mid' (pre := []) (w := s) (z := z) hs (by simp) rfl

theorem strrchr_none (c : UInt8) (s z : Bytes) (hs : NulFree s) (h : c ∉ s) : strrchr (s ++ 0 :: z) c = .ok none := by
  unfold strrchr
  rw [strAt_z hs]
  exact memrchr_none c [] s (0 :: z) h

theorem strrchr_some (c : UInt8) (x y z : Bytes) (hs : NulFree (x ++ c :: y)) (h : c ∉ y) :
    strrchr (x ++ c :: y ++ 0 :: z) c = .ok (some x.length) := by
  unfold strrchr
  rw [strAt_z hs]
  have := memrchr_some c [] x y (0 :: z) h
  simp only [List.nil_append, List.length_nil, Nat.zero_add] at this
  simp only [Res.ok_bind]
  rw [show x ++ c :: y ++ 0 :: z = x ++ c :: (y ++ 0 :: z) by simp, List.length_append, List.length_cons,
    show x.length + (y.length + 1) = x.length + 1 + y.length by omega, this]

/-- `pre` is empty or ends with something else than a slash. -/
def NoSlashEnd (pre : Bytes) : Prop := pre.getLast? ≠ some sl

theorem slashBack_spec (pre : Bytes) (hp : NoSlashEnd pre) : ∀ (k : Nat) (t : Bytes),
    slashBack (pre ++ List.replicate k sl ++ t) (pre.length + k) = .ok pre.length := by
  intro k
  induction k with
  | zero =>
    intro t
    rcases List.eq_nil_or_concat pre with rfl | ⟨p, a, rfl⟩
    · rfl
    · have ha : a ≠ sl := by rintro rfl; simp [NoSlashEnd] at hp
      simp only [List.replicate_zero, List.append_nil, Nat.add_zero, List.concat_eq_append, List.length_append, List.length_singleton]
      unfold slashBack
      rw [show p ++ [a] ++ t = p ++ a :: t by simp, rd_at rfl]
      simp only [Res.ok_bind, if_neg ha]
  | succ k ih =>
    intro t
    rw [← Nat.add_assoc]
    unfold slashBack
    have e : pre ++ List.replicate (k + 1) sl ++ t = (pre ++ List.replicate k sl) ++ sl :: t := by
      rw [List.replicate_succ']; simp
    rw [e, rd_at (by simp)]
    simp only [Res.ok_bind, if_true]
    exact ih (sl :: t)

theorem nameBack_spec (pre : Bytes) (hp : pre = [] ∨ pre.getLast? = some sl) : ∀ (name t : Bytes), sl ∉ name →
    nameBack (pre ++ name ++ t) (pre.length + name.length) = .ok pre.length := by
  intro name
  induction name using List.reverseRecOn with
  | nil =>
    intro t _
    rcases List.eq_nil_or_concat pre with rfl | ⟨p, a, rfl⟩
    · rfl
    · have ha : a = sl := by simpa using hp
      subst ha
      simp only [List.append_nil, List.length_nil, Nat.add_zero, List.concat_eq_append, List.length_append, List.length_singleton]
      unfold nameBack
      rw [show p ++ [sl] ++ t = p ++ sl :: t by simp, rd_at rfl]
      simp only [Res.ok_bind, if_true]
  | append_singleton y a ih =>
    intro t h
    have ha : a ≠ sl := by rintro rfl; simp at h
    rw [List.length_append, List.length_singleton, ← Nat.add_assoc]
    unfold nameBack
    rw [show pre ++ (y ++ [a]) ++ t = (pre ++ y) ++ a :: t by simp, rd_at (by simp)]
    simp only [Res.ok_bind, if_neg ha]
    exact ih (a :: t) (fun hc => h (List.mem_append_left _ hc))

theorem toEnd_spec : ∀ (k f : Nat) (x : Bytes) (z : Bytes), k < f →
    toEnd (x ++ List.replicate (k + 1) sl ++ 0 :: z) f x.length = .ok (x.length + k) := by
  intro k
  induction k with
  | zero =>
    intro f x z h
    obtain ⟨f, rfl⟩ : ∃ g, f = g + 1 := ⟨f - 1, by omega⟩
    unfold toEnd
    rw [rd_at (by simp)]
    simp
  | succ k ih =>
    intro f x z h
    obtain ⟨f, rfl⟩ : ∃ g, f = g + 1 := ⟨f - 1, by omega⟩
    unfold toEnd
    have e : x ++ List.replicate (k + 1 + 1) sl ++ 0 :: z = (x ++ [sl]) ++ sl :: (List.replicate k sl ++ 0 :: z) := by
      simp [List.replicate_succ]
    rw [e, rd_at (by simp)]
    have hs : sl ≠ 0 := by decide
    simp only [Res.ok_bind, if_neg hs]
    have := ih f (x ++ [sl]) z (by omega)
    rw [show x ++ [sl] ++ List.replicate (k + 1) sl ++ 0 :: z = (x ++ [sl]) ++ sl :: (List.replicate k sl ++ 0 :: z) by
      simp [List.replicate_succ]] at this
    simp only [List.length_append, List.length_singleton] at this
    rw [this]
    congr 1; omega

theorem noSlash_name {name pre : Bytes} (hn : name ≠ []) (hs : sl ∉ name) : NoSlashEnd (pre ++ name) := by
  unfold NoSlashEnd
  rw [List.getLast?_append_of_ne_nil _ hn]
  intro h
  exact hs (List.mem_of_getLast? h)

theorem nulFree_rep (k : Nat) : NulFree (List.replicate k sl) := by
  intro b hb
  rw [(List.mem_replicate.1 hb).2]; decide

/-- `basename` of a path with a last name. -/
theorem basename_name (pre name : Bytes) (hp : pre = [] ∨ pre.getLast? = some sl) (hn : name ≠ []) (hs : sl ∉ name)
    (h0 : NulFree pre) (h1 : NulFree name) (j : Nat) (z : Bytes) :
    basename (pre ++ name ++ List.replicate j sl ++ 0 :: z) =
      .ok (pre ++ name ++ (if j = 0 then [] else 0 :: List.replicate (j - 1) sl) ++ 0 :: z, some pre.length) := by
  obtain ⟨c, w, hcw⟩ : ∃ c w, pre ++ name ++ List.replicate j sl = c :: w := by
    cases h : pre ++ name ++ List.replicate j sl with
    | nil => simp at h; exact absurd h.2.1 hn
    | cons c w => exact ⟨c, w, rfl⟩
  have hfree : NulFree (pre ++ name ++ List.replicate j sl) := (h0.append h1).append (nulFree_rep j)
  have hc : c ≠ 0 := hfree c (by rw [hcw]; exact List.mem_cons_self ..)
  unfold basename
  rw [hcw, show rd (c :: w ++ 0 :: z) 0 = .ok c from rfl]
  simp only [Res.ok_bind, if_neg hc]
  rw [← hcw]
  cases j with
  | zero =>
    simp only [List.replicate_zero, List.append_nil, if_true]
    rcases List.eq_nil_or_concat pre with rfl | ⟨p, a, rfl⟩
    · rw [strrchr_none sl _ z (by simpa using h1) (by simpa using hs)]
      simp
    · have ha : a = sl := by simpa using hp
      subst ha
      simp only [List.concat_eq_append] at h0 ⊢
      rw [show p ++ [sl] ++ name ++ 0 :: z = p ++ sl :: name ++ 0 :: z by simp,
        strrchr_some sl p name z (by simpa using h0.append h1) hs]
      simp only [Res.ok_bind]
      obtain ⟨n0, nt, rfl⟩ : ∃ n0 nt, name = n0 :: nt := by
        cases name with
        | nil => exact absurd rfl hn
        | cons n0 nt => exact ⟨_, _, rfl⟩
      rw [show p ++ sl :: n0 :: nt ++ 0 :: z = (p ++ [sl]) ++ n0 :: (nt ++ 0 :: z) by simp, rd_at (by simp)]
      have : n0 ≠ 0 := h1 n0 (List.mem_cons_self ..)
      simp [this]
  | succ j =>
    have e : pre ++ name ++ List.replicate (j + 1) sl ++ 0 :: z =
        (pre ++ name ++ List.replicate j sl) ++ sl :: [] ++ 0 :: z := by
      rw [List.replicate_succ']; simp
    rw [e, strrchr_some sl _ [] z (by
      rw [List.replicate_succ'] at hfree; simpa using hfree) (by simp)]
    simp only [Res.ok_bind]
    rw [show (pre ++ name ++ List.replicate j sl) ++ sl :: [] ++ 0 :: z =
      (pre ++ name ++ List.replicate j sl ++ [sl]) ++ 0 :: z by simp, rd_at (by simp; omega)]
    simp only [Res.ok_bind, if_true]
    have hb := slashBack_spec (pre ++ name) (noSlash_name hn hs) j ([sl] ++ 0 :: z)
    rw [show pre ++ name ++ List.replicate j sl ++ ([sl] ++ 0 :: z) =
      (pre ++ name ++ List.replicate j sl ++ [sl]) ++ 0 :: z by simp] at hb
    rw [show (pre ++ name ++ List.replicate j sl).length = (pre ++ name).length + j by simp; omega, hb]
    have hpos : (pre ++ name).length > 0 := by
      have := List.length_pos_of_ne_nil hn
      simp; omega
    simp only [Res.ok_bind, if_pos hpos]
    have e2 : (pre ++ name ++ List.replicate j sl ++ [sl]) ++ 0 :: z = (pre ++ name) ++ sl :: (List.replicate j sl ++ 0 :: z) := by
      rw [show pre ++ name ++ List.replicate j sl ++ [sl] = pre ++ name ++ List.replicate (j + 1) sl by
        rw [List.replicate_succ']; simp, List.replicate_succ]
      simp
    rw [e2, wr_at rfl]
    simp only [Res.ok_bind]
    rcases List.eq_nil_or_concat name with rfl | ⟨n1, a, rfl⟩
    · exact absurd rfl hn
    · simp only [List.concat_eq_append] at *
      have := nameBack_spec pre hp n1 ([a] ++ 0 :: (List.replicate j sl ++ 0 :: z)) (fun h => hs (List.mem_append_left _ h))
      rw [show pre ++ n1 ++ ([a] ++ 0 :: (List.replicate j sl ++ 0 :: z)) =
        pre ++ (n1 ++ [a]) ++ 0 :: (List.replicate j sl ++ 0 :: z) by simp] at this
      rw [show (pre ++ (n1 ++ [a])).length - 1 = pre.length + n1.length by simp, this]
      simp

/-- `basename` of slashes only. -/
theorem basename_slashes (k : Nat) (z : Bytes) :
    basename (List.replicate (k + 1) sl ++ 0 :: z) = .ok (List.replicate (k + 1) sl ++ 0 :: z, some k) := by
  unfold basename
  have h0 : rd (List.replicate (k + 1) sl ++ 0 :: z) 0 = .ok sl := by
    rw [List.replicate_succ]; rfl
  have hs : sl ≠ 0 := by decide
  rw [h0]
  simp only [Res.ok_bind, if_neg hs]
  have h1 : strrchr (List.replicate (k + 1) sl ++ 0 :: z) sl = .ok (some k) := by
    have := strrchr_some sl (List.replicate k sl) [] z (by
      have := nulFree_rep (k + 1); rw [List.replicate_succ'] at this; exact this) (by simp)
    rw [List.length_replicate] at this
    rw [← this, List.replicate_succ']
  rw [h1]
  simp only [Res.ok_bind]
  rw [rd_at (by simp)]
  simp only [Res.ok_bind, if_true]
  have h2 := slashBack_spec [] (by simp [NoSlashEnd]) k ([sl] ++ 0 :: z)
  simp only [List.nil_append, List.length_nil, Nat.zero_add] at h2
  rw [show List.replicate (k + 1) sl ++ 0 :: z = List.replicate k sl ++ ([sl] ++ 0 :: z) by
    rw [List.replicate_succ']; simp, h2]
  simp only [Res.ok_bind, if_neg (Nat.lt_irrefl 0)]
  have h3 := toEnd_spec k (List.replicate k sl ++ ([sl] ++ 0 :: z)).length [] z (by simp)
  rw [show List.replicate k sl ++ ([sl] ++ 0 :: z) = List.replicate (k + 1) sl ++ 0 :: z by
    rw [List.replicate_succ']; simp] at h3 ⊢
  simp only [List.nil_append, List.length_nil, Nat.zero_add] at h3
  rw [h3]
  rfl

/-- The slash found by `dirname` in a path with a last name and a slash before it. -/
theorem lastSlash_name (pre name : Bytes) (hn : name ≠ []) (hs : sl ∉ name) (h0 : NulFree pre) (h1 : NulFree name)
    (j : Nat) (z : Bytes) :
    lastSlash (pre ++ sl :: name ++ List.replicate j sl ++ 0 :: z) = .ok (some pre.length) := by
  have hsl : NulFree [sl] := by intro b hb; simp at hb; rw [hb]; decide
  have hfree : NulFree (pre ++ sl :: name ++ List.replicate j sl) := by
    have := ((h0.append hsl).append h1).append (nulFree_rep j)
    simpa using this
  unfold lastSlash
  cases j with
  | zero =>
    simp only [List.replicate_zero, List.append_nil] at hfree ⊢
    rw [strrchr_some sl pre name z hfree hs]
    simp only [Res.ok_bind]
    obtain ⟨n0, nt, rfl⟩ : ∃ n0 nt, name = n0 :: nt := by
      cases name with
      | nil => exact absurd rfl hn
      | cons n0 nt => exact ⟨_, _, rfl⟩
    rw [show pre ++ sl :: n0 :: nt ++ 0 :: z = (pre ++ [sl]) ++ n0 :: (nt ++ 0 :: z) by simp, rd_at (by simp)]
    have : n0 ≠ 0 := h1 n0 (List.mem_cons_self ..)
    simp [this]
  | succ j =>
    have e : pre ++ sl :: name ++ List.replicate (j + 1) sl ++ 0 :: z =
        (pre ++ sl :: name ++ List.replicate j sl) ++ sl :: [] ++ 0 :: z := by
      rw [List.replicate_succ']; simp
    rw [e, strrchr_some sl _ [] z (by
      rw [List.replicate_succ'] at hfree; simpa using hfree) (by simp)]
    simp only [Res.ok_bind]
    rw [show (pre ++ sl :: name ++ List.replicate j sl) ++ sl :: [] ++ 0 :: z =
      (pre ++ sl :: name ++ List.replicate j sl ++ [sl]) ++ 0 :: z by simp, rd_at (by simp; omega)]
    simp only [Res.ok_bind]
    rw [if_pos ⟨by simp, trivial⟩]
    have hb := slashBack_spec (pre ++ [sl] ++ name) (noSlash_name hn hs) j ([sl] ++ 0 :: z)
    rw [show pre ++ [sl] ++ name ++ List.replicate j sl ++ ([sl] ++ 0 :: z) =
      (pre ++ sl :: name ++ List.replicate j sl ++ [sl]) ++ 0 :: z by simp] at hb
    rw [show (pre ++ sl :: name ++ List.replicate j sl).length = (pre ++ [sl] ++ name).length + j by simp; omega, hb]
    simp only [Res.ok_bind]
    rw [if_pos (by simp)]
    have := memrchr_some sl [] pre name (List.replicate j sl ++ [sl] ++ 0 :: z) hs
    simp only [List.nil_append, List.length_nil, Nat.zero_add] at this
    rw [show pre ++ sl :: (name ++ (List.replicate j sl ++ [sl] ++ 0 :: z)) =
      (pre ++ sl :: name ++ List.replicate j sl ++ [sl]) ++ 0 :: z by simp] at this
    rw [show (pre ++ [sl] ++ name).length = pre.length + 1 + name.length by simp; omega, this]

/-- A path of one name, perhaps followed by slashes: `dirname` finds no slash before it. -/
theorem lastSlash_single (name : Bytes) (hn : name ≠ []) (hs : sl ∉ name) (h1 : NulFree name) (j : Nat) (z : Bytes) :
    lastSlash (name ++ List.replicate j sl ++ 0 :: z) = .ok none := by
  have hfree : NulFree (name ++ List.replicate j sl) := h1.append (nulFree_rep j)
  unfold lastSlash
  cases j with
  | zero =>
    simp only [List.replicate_zero, List.append_nil] at hfree ⊢
    rw [strrchr_none sl name z hfree hs]
    rfl
  | succ j =>
    have e : name ++ List.replicate (j + 1) sl ++ 0 :: z =
        (name ++ List.replicate j sl) ++ sl :: [] ++ 0 :: z := by
      rw [List.replicate_succ']; simp
    rw [e, strrchr_some sl _ [] z (by
      rw [List.replicate_succ'] at hfree; simpa using hfree) (by simp)]
    simp only [Res.ok_bind]
    rw [show (name ++ List.replicate j sl) ++ sl :: [] ++ 0 :: z =
      (name ++ List.replicate j sl ++ [sl]) ++ 0 :: z by simp, rd_at (by simp; omega)]
    simp only [Res.ok_bind]
    have hpos := List.length_pos_of_ne_nil hn
    rw [if_pos ⟨by simp; intro h; exact absurd h hn, trivial⟩]
    have hb := slashBack_spec name (by have := noSlash_name (pre := []) hn hs; simpa using this) j ([sl] ++ 0 :: z)
    rw [show name ++ List.replicate j sl ++ ([sl] ++ 0 :: z) =
      (name ++ List.replicate j sl ++ [sl]) ++ 0 :: z by simp] at hb
    rw [show (name ++ List.replicate j sl).length = name.length + j by simp, hb]
    simp only [Res.ok_bind]
    rw [if_pos (by omega)]
    have := memrchr_none sl [] name (List.replicate j sl ++ [sl] ++ 0 :: z) hs
    simp only [List.nil_append, List.length_nil] at this
    rw [← this]
    congr 1; simp

theorem lastSlash_slashes (k : Nat) (z : Bytes) :
    lastSlash (List.replicate (k + 1) sl ++ 0 :: z) = .ok (some k) := by
  have h1 : strrchr (List.replicate (k + 1) sl ++ 0 :: z) sl = .ok (some k) := by
    have := strrchr_some sl (List.replicate k sl) [] z (by
      have := nulFree_rep (k + 1); rw [List.replicate_succ'] at this; exact this) (by simp)
    rw [List.length_replicate] at this
    rw [← this, List.replicate_succ']
  unfold lastSlash
  rw [h1]
  simp only [Res.ok_bind]
  rw [rd_at (by simp)]
  have h2 := slashBack_spec [] (by simp [NoSlashEnd]) k ([sl] ++ 0 :: z)
  simp only [List.nil_append, List.length_nil, Nat.zero_add] at h2
  rw [show List.replicate k sl ++ ([sl] ++ 0 :: z) = List.replicate (k + 1) sl ++ 0 :: z by
    rw [List.replicate_succ']; simp] at h2
  simp only [Res.ok_bind, h2]
  simp

/-- The slashes that `dirname` keeps of a path that begins with `k + 1` slashes and has no directory. -/
def rootOf (k : Nat) : Bytes := if k = 1 then [sl, sl] else [sl]

/-- What `dirname` writes once the slash is found: the part before the slashes, or the root. -/
theorem dirname_cut (pre : Bytes) (hp : NoSlashEnd pre) (k : Nat) (x : UInt8) (t : Bytes)
    (h : lastSlash (pre ++ List.replicate (k + 1) sl ++ x :: t) = .ok (some (pre.length + k))) :
    ∃ z, dirname (pre ++ List.replicate (k + 1) sl ++ x :: t) =
      .ok ((if pre = [] then rootOf k else pre) ++ 0 :: z) := by
  unfold dirname
  rw [h]
  simp only [Res.ok_bind]
  have hb := slashBack_spec pre hp k (sl :: x :: t)
  have e : pre ++ List.replicate k sl ++ sl :: x :: t = pre ++ List.replicate (k + 1) sl ++ x :: t := by
    rw [List.replicate_succ']; simp
  rw [e] at hb
  rw [hb]
  simp only [Res.ok_bind]
  by_cases hpre : pre = []
  · subst hpre
    simp only [List.length_nil, if_true, Nat.zero_add, List.nil_append]
    unfold rootOf
    by_cases hk : k = 1
    · subst hk
      rw [if_pos rfl, if_pos rfl]
      exact ⟨t, rfl⟩
    · rw [if_neg hk, if_neg hk]
      cases k with
      | zero => exact ⟨t, rfl⟩
      | succ k =>
        refine ⟨List.replicate k sl ++ x :: t, ?_⟩
        rw [show List.replicate (k + 1 + 1) sl ++ x :: t = [sl] ++ sl :: (List.replicate k sl ++ x :: t) by
          simp [List.replicate_succ], wr_at (by rfl)]
  · have : pre.length ≠ 0 := fun h => hpre (List.length_eq_zero_iff.1 h)
    rw [if_neg this, if_neg hpre]
    refine ⟨List.replicate k sl ++ x :: t, ?_⟩
    rw [show pre ++ List.replicate (k + 1) sl ++ x :: t = pre ++ sl :: (List.replicate k sl ++ x :: t) by
      simp [List.replicate_succ], wr_at rfl]

end Verif.Str
