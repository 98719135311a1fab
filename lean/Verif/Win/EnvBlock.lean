import Verif.Proc.ExecProps

/-!
# The environment of a process started on Windows (`src/os_windows.c` 744-748, 785-793, `src/arrays.c` 540-577), C226

`exec_info` cuts the text at the semicolons with `str_split_ex` (`Verif.Str.strSplitEx`, with the exact size of its block) and
`os_exec_child` hands the first piece to `CreateProcessA` as the environment.
-/

namespace Verif.Win.EnvBlock
open Verif Verif.Str
open Verif.Proc (semi eqs infix_single)

/-- How `CreateProcessA` reads an environment: strings one behind the other up to the first empty one.  Reading past the end of
the block is undefined.  No more strings than bytes: `fuel`. -/
def readBlock (b : Bytes) : Nat → Nat → Res (List Bytes)
  | 0, _ => .ub
  | fuel + 1, p => do
    let w ← strAt b p
    if w = [] then .ok []
    else do
      let ws ← readBlock b fuel (p + w.length + 1)
      .ok (w :: ws)

/-- `exec_info(env, …)` followed by `exec`, src/os_windows.c:785-793 and 744-748: the assignments the new process starts with,
or `none`: those of its parent.  The pieces lie behind each other in the block of `str_split_ex`, the first one at its start. -/
def childEnv (env : Option Bytes) : Res (Option (List Bytes)) :=
  match env with
  | none => .ok none
  | some e => do
    let h1 ← strHas (cstr e) (cstr eqs)
    let h2 ← (if h1 then strHas (cstr e) (cstr semi) else .ok false)
    if h1 && h2 then do
      match ← strSplitEx (cstr e) (cstr semi) with
      | none => .ok none
      | some o => do
        let ws ← readBlock o.text (o.text.length + 1) 0
        .ok (some ws)
    else .ok none

/-! ## Specification -/

/-- An assignment that the format can carry. -/
def Plain (a : Bytes) : Prop := a ≠ [] ∧ 0 ∉ a ∧ 59 ∉ a

/-- `Key1=Value1;Key2=Value2;`, as `exec_addenv` makes it. -/
def closed : List Bytes → Bytes
  | [] => []
  | a :: as => a ++ 59 :: closed as

/-- `Key1=Value1;Key2=Value2`. -/
def separated : List Bytes → Bytes
  | [] => []
  | [a] => a
  | a :: b :: as => a ++ 59 :: separated (b :: as)

/-! ## Proofs -/

def cut (s : Bytes) : Bytes := s.map fun c => if c = 59 then 0 else c

theorem cut_id {w : Bytes} (h : 59 ∉ w) : cut w = w := by
  unfold cut
  conv_rhs => rw [← List.map_id w]
  refine List.map_congr_left fun c hc => ?_
  have : c ≠ 59 := fun e => h (e ▸ hc)
  simp [this]

theorem occ_iff {s : Bytes} {i : Nat} : OccursAt semi s i ↔ s[i]? = some 59 := by
  unfold OccursAt semi
  constructor
  · rintro ⟨_, t, ht⟩
    have : (s.drop i)[0]? = some 59 := by rw [← ht]; rfl
    simpa using this
  · intro h
    have hi : i < s.length := by
      by_contra hc
      rw [List.getElem?_eq_none (by omega)] at h
      cases h
    refine ⟨by omega, s.drop (i + 1), ?_⟩
    rw [List.getElem?_eq_getElem hi] at h
    rw [List.drop_eq_getElem_cons hi]
    simp at h
    simp [h]

theorem strCut_text {rest ws} (h : Split semi rest ws) :
    ∀ (pre z : Bytes) (fuel cap : Nat) (ptrs : List (Option Nat)), NulFree rest → rest.length < fuel →
      ptrs.length + (ws.length - 1) ≤ cap →
      ∃ ps, strCut semi cap fuel (pre ++ rest ++ 0 :: z) pre.length ptrs = .ok (pre ++ cut rest ++ 0 :: z, ps) ∧
        ps.length = ptrs.length + (ws.length - 1) := by
  induction h with
  | last s h0 =>
    intro pre z fuel cap ptrs hn hf hc
    obtain ⟨fuel, rfl⟩ : ∃ f, fuel = f + 1 := ⟨fuel - 1, by omega⟩
    have h59 : 59 ∉ s := by
      intro hm
      obtain ⟨i, hi⟩ := List.mem_iff_getElem?.1 hm
      exact h0 i (occ_iff.2 hi)
    refine ⟨ptrs, ?_, by simp⟩
    unfold strCut
    rw [strstr_mid hn, searchFrom_none_of h0, cut_id h59]
    rfl
  | more w r ws h0 hs ih =>
    intro pre z fuel cap ptrs hn hf hc
    obtain ⟨fuel, rfl⟩ : ∃ f, fuel = f + 1 := ⟨fuel - 1, by omega⟩
    have hd : semi ≠ [] := by decide
    have hp := List.length_pos_iff.2 hs.ne_nil
    have hcap : ptrs.length + ws.length ≤ cap := by simpa using hc
    have el := cut_once_length pre w semi hd
    obtain ⟨ps, h1, h2⟩ := ih (pre ++ w ++ 0 :: semi.tail) z fuel cap
      (ptrs ++ [some (pre.length + w.length + semi.length)]) hn.right (by simp [semi] at hf; omega) (by simp; omega)
    rw [el] at h1
    have h59 : 59 ∉ w := by
      intro hm
      obtain ⟨i, hi⟩ := List.mem_iff_getElem?.1 hm
      have hil : i < w.length := by
        by_contra hc
        rw [List.getElem?_eq_none (by omega)] at hi
        cases hi
      refine h0 i hil (occ_iff.2 ?_)
      rw [List.append_assoc, List.getElem?_append_left hil]
      exact hi
    refine ⟨ps, ?_, ?_⟩
    · unfold strCut
      rw [strstr_mid hn, searchFrom_more h0]
      simp only [Res.ok_bind, Option.map_some]
      rw [wr_ok (by simp [semi]), cut_once pre w semi r z hd]
      simp only [Res.ok_bind, pushPtr]
      rw [if_pos (by omega)]
      simp only [Res.ok_bind, h1]
      have e' : cut (w ++ semi ++ r) = cut w ++ 0 :: cut r := by simp [cut, semi]
      rw [e', cut_id h59]
      simp [semi]
    · simp at h2 ⊢
      omega

/-- The block of `str_split_ex`: the pieces, a NUL, and one more if the text has an even number of bytes. -/
theorem split_text (s : Bytes) (h0 : NulFree s) (h59 : 59 ∈ s) :
    ∃ o, strSplitEx (cstr s) (cstr semi) = .ok (some o) ∧
      o.text = cut s ++ 0 :: (if s.length % 2 = 0 then [0] else []) := by
  have hne : s ≠ [] := by rintro rfl; simp at h59
  have hd : semi ≠ [] := by decide
  obtain ⟨ws, hws⟩ := Split.exists semi hd s
  have hpos := List.length_pos_iff.2 hws.ne_nil
  have hsl : s.length ≠ 0 := by simpa using hne
  have hw1 : ws.length > 1 := by
    cases hws with
    | last _ h => 
      obtain ⟨i, hi⟩ := List.mem_iff_getElem?.1 h59
      exact absurd (occ_iff.2 hi) (h i)
    | more w r ws' h hs =>
      have := List.length_pos_iff.2 hs.ne_nil
      simp
      omega
  have hcount := strCount_spec hd hws [] [] (s.length + 1) 1 h0 (by omega)
  rw [show 1 + (ws.length - 1) = ws.length by omega] at hcount
  simp only [List.nil_append, List.length_nil] at hcount
  have hz : memcpy (calloc (alignUp2 ((ws.length + 1) * 8 + s.length + 1) - (ws.length + 1) * 8)) 0 (cstr s) 0 s.length =
      .ok (s ++ 0 :: (if s.length % 2 = 0 then [0] else [])) := by
    have e : alignUp2 ((ws.length + 1) * 8 + s.length + 1) - (ws.length + 1) * 8 =
        s.length + (1 + (if s.length % 2 = 0 then 1 else 0)) := by
      unfold alignUp2
      split <;> omega
    rw [e, memcpy_ok (by simp [cstr]) (by simp [calloc])]
    simp only [List.take_zero, List.drop_zero, calloc, List.drop_replicate, Nat.zero_add, cstr,
      List.take_left, List.nil_append, Nat.add_sub_cancel_left]
    congr 2
    split <;> rfl
  obtain ⟨ps, h1, h2⟩ := strCut_text hws [] (if s.length % 2 = 0 then [0] else []) (s.length + 1) (ws.length + 1) [some 0] h0
    (by omega) (by simp; omega)
  simp only [List.nil_append, List.length_nil] at h1
  refine ⟨⟨ps ++ [none], cut s ++ 0 :: (if s.length % 2 = 0 then [0] else []), ws.length⟩, ?_, rfl⟩
  unfold strSplitEx
  simp only [strAt_cstr h0 (Nat.zero_le _), strAt_cstr (show NulFree semi by decide) (Nat.zero_le _), List.drop_zero,
    Res.ok_bind]
  rw [if_neg hsl]
  have hc2 : strCount (cstr s) semi (s.length + 1) 0 1 = .ok ws.length := hcount
  simp only [hc2, Res.ok_bind, hz]
  rw [show pushPtr (ws.length + 1) [] (some 0) = .ok [some 0] by simp [pushPtr]]
  simp only [Res.ok_bind]
  rw [if_pos hw1, h1]
  simp only [Res.ok_bind]
  have h3 : ps.length < ws.length + 1 := by simp at h2; omega
  rw [show pushPtr (ws.length + 1) ps none = .ok (ps ++ [none]) by simp [pushPtr, h3]]
  rfl

theorem read_cons {pre w z : Bytes} {fuel : Nat} (hw : NulFree w) (hne : w ≠ []) :
    readBlock (pre ++ w ++ 0 :: z) (fuel + 1) pre.length =
      (readBlock ((pre ++ w ++ [0]) ++ z) fuel (pre ++ w ++ [0]).length >>= fun ws => .ok (w :: ws)) := by
  have e : (pre ++ w ++ [0]) ++ z = pre ++ w ++ 0 :: z := by simp
  have el : (pre ++ w ++ [0]).length = pre.length + w.length + 1 := by simp; omega
  rw [e, el, readBlock, strAt_mid hw]
  simp only [Res.ok_bind, if_neg hne]

theorem Plain.nulFree {a : Bytes} (h : Plain a) : NulFree a := by
  intro x hx e
  exact h.2.1 (e ▸ hx)

theorem read_closed : ∀ (as : List Bytes) (pre z : Bytes) (fuel : Nat), (∀ a ∈ as, Plain a) → as.length < fuel →
    readBlock (pre ++ cut (closed as) ++ 0 :: z) fuel pre.length = .ok as
  | [], pre, z, fuel, _, hf => by
    obtain ⟨fuel, rfl⟩ : ∃ f, fuel = f + 1 := ⟨fuel - 1, by omega⟩
    have : strAt (pre ++ [] ++ 0 :: z) pre.length = .ok [] := strAt_mid (by simp [NulFree])
    simp only [closed, cut, List.map_nil, readBlock, this, Res.ok_bind, if_true]
  | a :: as, pre, z, fuel, h, hf => by
    obtain ⟨fuel, rfl⟩ : ∃ f, fuel = f + 1 := ⟨fuel - 1, by omega⟩
    have ha := h a (by simp)
    have e : pre ++ cut (closed (a :: as)) ++ 0 :: z = pre ++ a ++ 0 :: (cut (closed as) ++ 0 :: z) := by
      have : cut (closed (a :: as)) = cut a ++ 0 :: cut (closed as) := by simp [cut, closed]
      rw [this, cut_id ha.2.2]
      simp
    rw [e, read_cons ha.nulFree ha.1, ← List.append_assoc,
      read_closed as _ z fuel (fun b hb => h b (by simp [hb])) (by simpa using hf)]
    rfl

/-- The same bytes with nothing behind them. -/
theorem read_over : ∀ (as : List Bytes) (pre : Bytes) (fuel : Nat), (∀ a ∈ as, Plain a) →
    readBlock (pre ++ cut (closed as)) fuel pre.length = .ub
  | _, _, 0, _ => rfl
  | [], pre, fuel + 1, _ => by
    have : strAt (pre ++ cut (closed [])) pre.length = .ub := by simp [strAt, cut, closed]
    simp only [readBlock, this]
    rfl
  | a :: as, pre, fuel + 1, h => by
    have ha := h a (by simp)
    have e : pre ++ cut (closed (a :: as)) = pre ++ a ++ 0 :: cut (closed as) := by
      have : cut (closed (a :: as)) = cut a ++ 0 :: cut (closed as) := by simp [cut, closed]
      rw [this, cut_id ha.2.2]
      simp
    rw [e, read_cons ha.nulFree ha.1, read_over as _ fuel (fun b hb => h b (by simp [hb]))]
    rfl

theorem closed_separated : ∀ as : List Bytes, as ≠ [] → cut (closed as) = cut (separated as) ++ [0]
  | [], h => absurd rfl h
  | [a], _ => by simp [closed, separated, cut]
  | a :: b :: as, _ => by
    have ih := closed_separated (b :: as) (by simp)
    have e1 : cut (closed (a :: b :: as)) = cut a ++ 0 :: cut (closed (b :: as)) := by simp [cut, closed]
    have e2 : cut (separated (a :: b :: as)) = cut a ++ 0 :: cut (separated (b :: as)) := by simp [cut, separated]
    rw [e1, e2, ih]
    simp

theorem nulFree_closed {as : List Bytes} (h : ∀ a ∈ as, Plain a) : NulFree (closed as) := by
  induction as with
  | nil => simp [closed, NulFree]
  | cons a as ih =>
    intro x hx
    simp only [closed, List.mem_append, List.mem_cons] at hx
    rcases hx with hx | rfl | hx
    · exact (h a (by simp)).nulFree x hx
    · decide
    · exact ih (fun b hb => h b (by simp [hb])) x hx

theorem mem_closed {as : List Bytes} {a : Bytes} {x : UInt8} (ha : a ∈ as) (hx : x ∈ a) : x ∈ closed as := by
  induction as with
  | nil => simp at ha
  | cons b as ih =>
    simp only [closed, List.mem_append, List.mem_cons]
    rcases List.mem_cons.1 ha with rfl | ha
    · exact Or.inl hx
    · exact Or.inr (Or.inr (ih ha))

theorem len_closed (as : List Bytes) (h : ∀ a ∈ as, Plain a) : as.length ≤ (closed as).length := by
  induction as with
  | nil => simp
  | cons a as ih =>
    have := ih (fun b hb => h b (by simp [hb]))
    simp [closed]
    omega

theorem childEnv_takes {e : Bytes} (h0 : NulFree e) (hl : e.length < 2 ^ 31) (h1 : 61 ∈ e) (h2 : 59 ∈ e) :
    childEnv (some e) = (readBlock (cut e ++ 0 :: (if e.length % 2 = 0 then [0] else []))
      ((cut e ++ 0 :: (if e.length % 2 = 0 then [0] else []) : Bytes).length + 1) 0 >>= fun ws => .ok (some ws)) := by
  obtain ⟨o, h3, h4⟩ := split_text e h0 h2
  have h5 := str_has_iff_infix e eqs h0 (by decide) hl
  have h6 := str_has_iff_infix e semi h0 (by decide) hl
  have h7 : eqs <:+: e := infix_single.2 h1
  have h8 : semi <:+: e := infix_single.2 h2
  simp only [childEnv, h5, h6, h7, h8, decide_true, Res.ok_bind, if_true, Bool.and_self, h3, h4]

/-! ## C226 -/

/-- **C226**, the part that holds: a process started with assignments each followed by a semicolon, as `exec_addenv` writes
them, has exactly these, in order. -/
theorem environment_exact_partial (as : List Bytes) (h : ∀ a ∈ as, Plain a) (hq : ∃ a ∈ as, 61 ∈ a)
    (hl : (closed as).length < 2 ^ 31) : childEnv (some (closed as)) = .ok (some as) := by
  obtain ⟨a, ha, hx⟩ := hq
  have h59 : 59 ∈ closed as := by
    cases as with
    | nil => simp at ha
    | cons b as => simp [closed]
  rw [childEnv_takes (nulFree_closed h) hl (mem_closed ha hx) h59]
  have := read_closed as [] (if (closed as).length % 2 = 0 then [0] else [])
    ((cut (closed as) ++ 0 :: (if (closed as).length % 2 = 0 then [0] else []) : Bytes).length + 1) h
    (by have := len_closed as h; simp [cut]; omega)
  simp only [List.nil_append, List.length_nil] at this
  rw [this]
  rfl

example : Plain [65, 61, 49] ∧ childEnv (some (closed [[65, 61, 49], [66, 61]])) = .ok (some [[65, 61, 49], [66, 61]]) :=
  ⟨⟨by simp, by decide, by decide⟩, by decide +kernel⟩

theorem separated_facts {as : List Bytes} (h : ∀ a ∈ as, Plain a) (h2 : 2 ≤ as.length) :
    NulFree (separated as) ∧ 59 ∈ separated as ∧ ∀ a ∈ as, ∀ x ∈ a, x ∈ separated as := by
  refine ⟨?_, ?_, ?_⟩
  · clear h2
    induction as with
    | nil => simp [separated, NulFree]
    | cons a as ih =>
      cases as with
      | nil => exact (h a (by simp)).nulFree
      | cons b as =>
        intro x hx
        simp only [separated, List.mem_append, List.mem_cons] at hx
        rcases hx with hx | rfl | hx
        · exact (h a (by simp)).nulFree x hx
        · decide
        · exact ih (fun c hc => h c (by simp at hc ⊢; tauto)) x hx
  · match as, h2 with
    | a :: b :: as, _ => simp [separated]
  · clear h h2
    induction as with
    | nil => simp
    | cons a as ih =>
      cases as with
      | nil => simp [separated]
      | cons b as =>
        intro c hc x hx
        simp only [separated, List.mem_append, List.mem_cons]
        rcases List.mem_cons.1 hc with rfl | hc
        · exact Or.inl hx
        · exact Or.inr (Or.inr (ih c hc x hx))

/-- **C226.** Without a semicolon at the end (the form that is documented) it is right if the text has an even number of
bytes ... -/
theorem separated_even_exact (as : List Bytes) (h : ∀ a ∈ as, Plain a) (h2 : 2 ≤ as.length) (hq : ∃ a ∈ as, 61 ∈ a)
    (hl : (separated as).length < 2 ^ 31) (he : (separated as).length % 2 = 0) :
    childEnv (some (separated as)) = .ok (some as) := by
  obtain ⟨a, ha, hx⟩ := hq
  obtain ⟨h0, h59, hm⟩ := separated_facts h h2
  rw [childEnv_takes h0 hl (hm a ha 61 hx) h59]
  simp only [he, if_true]
  have e : cut (separated as) ++ [0, 0] = cut (closed as) ++ 0 :: [] := by
    rw [closed_separated as (by rintro rfl; simp at h2)]
    simp
  have := read_closed as [] [] ((cut (separated as) ++ [0, 0]).length + 1) h
    (by rw [e]; have := len_closed as h; simp [cut]; omega)
  simp only [List.nil_append, List.length_nil] at this
  rw [e] at this ⊢
  rw [this]
  rfl

/-- ... and **false of the code** if it has an odd number: the block has no empty string at its end and what lies behind it is
read. -/
theorem separated_odd_reads_on (as : List Bytes) (h : ∀ a ∈ as, Plain a) (h2 : 2 ≤ as.length) (hq : ∃ a ∈ as, 61 ∈ a)
    (hl : (separated as).length < 2 ^ 31) (he : (separated as).length % 2 = 1) :
    childEnv (some (separated as)) = .ub := by
  obtain ⟨a, ha, hx⟩ := hq
  obtain ⟨h0, h59, hm⟩ := separated_facts h h2
  rw [childEnv_takes h0 hl (hm a ha 61 hx) h59]
  have hne : ¬ (separated as).length % 2 = 0 := by omega
  simp only [hne, if_false]
  have e : cut (separated as) ++ [0] = cut (closed as) := by
    rw [closed_separated as (by rintro rfl; simp at h2)]
  have := read_over as [] ((cut (separated as) ++ [0]).length + 1) h
  simp only [List.nil_append, List.length_nil] at this
  rw [e] at this ⊢
  rw [this]
  rfl

/-- `A=1;B=2` has seven bytes, `A=1;B=22` eight. -/
example : childEnv (some (separated [[65, 61, 49], [66, 61, 50]])) = .ub ∧
    childEnv (some (separated [[65, 61, 49], [66, 61, 50, 50]])) = .ok (some [[65, 61, 49], [66, 61, 50, 50]]) := by
  constructor <;> decide +kernel

/-- **C226.** Two semicolons in a row end the environment: of what follows nothing arrives. -/
theorem empty_assignment_ends (as : List Bytes) (rest : Bytes) (h : ∀ a ∈ as, Plain a) (hr : NulFree rest)
    (hq : 61 ∈ closed as ++ 59 :: rest) (hl : (closed as ++ 59 :: rest).length < 2 ^ 31) :
    childEnv (some (closed as ++ 59 :: rest)) = .ok (some as) := by
  have h0 : NulFree (closed as ++ 59 :: rest) := by
    intro x hx
    rcases List.mem_append.1 hx with hx | hx
    · exact nulFree_closed h x hx
    · rcases List.mem_cons.1 hx with rfl | hx
      · decide
      · exact hr x hx
  rw [childEnv_takes h0 hl hq (by simp)]
  have e : ∀ z, cut (closed as ++ 59 :: rest) ++ z = cut (closed as) ++ 0 :: (cut rest ++ z) := by
    intro z
    simp [cut]
  rw [e]
  have := read_closed as [] (cut rest ++ 0 :: (if (closed as ++ 59 :: rest).length % 2 = 0 then [0] else []))
    ((cut (closed as) ++ 0 :: (cut rest ++ 0 :: (if (closed as ++ 59 :: rest).length % 2 = 0 then [0] else [])) :
      Bytes).length + 1) h (by have := len_closed as h; simp [cut]; omega)
  simp only [List.nil_append, List.length_nil] at this
  rw [this]
  rfl

/-- `A=1;;B=2`. -/
example : childEnv (some (closed [[65, 61, 49]] ++ 59 :: [66, 61, 50])) = .ok (some [[65, 61, 49]]) := by decide +kernel

/-- **C226.** One assignment without a semicolon is dropped: the process has the environment of its parent. -/
theorem single_assignment_dropped (a : Bytes) (h0 : NulFree a) (h : 59 ∉ a) (hl : a.length < 2 ^ 31) :
    childEnv (some a) = .ok none := by
  have h5 := str_has_iff_infix a eqs h0 (by decide) hl
  have h6 := str_has_iff_infix a semi h0 (by decide) hl
  have h8 : ¬ semi <:+: a := fun hc => h (infix_single.1 hc)
  by_cases hq : eqs <:+: a <;> simp [childEnv, h5, h6, h8, hq, Res.ok_bind]

example : childEnv (some [65, 61, 49]) = .ok none := by decide +kernel

end Verif.Win.EnvBlock
