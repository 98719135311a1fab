import Verif.Switch.A64

/-!
# What the 64 bit ARM code does, as a whole
-/

namespace Verif.Switch.A64

open Verif.Switch

def saves (f : Nat → Nat) (b : Nat) (l : List (Nat × Nat × Nat)) : List (Nat × Nat × Nat) :=
  l.flatMap fun e => [(b + e.2.2, 8, f e.1), (b + (e.2.2 + 8), 8, f e.2.1)]

def loads (m : Mem) (a : Nat) (l : List (Nat × Nat × Nat)) : List (Nat × Nat) :=
  l.flatMap fun e => [(e.1, rd m (a + e.2.2) 8), (e.2.1, rd m (a + (e.2.2 + 8)) 8)]

theorem addr_eq {c : Cpu} {n o a : Nat} (h : c.x n = a) (hb : a + o < 2 ^ 64) :
    addr c n o = a + o := by
  rw [addr, h, Nat.mod_eq_of_lt hb]

theorem saves_congr {f g : Nat → Nat} {b : Nat} {l : List (Nat × Nat × Nat)}
    (h : ∀ e ∈ l, f e.1 = g e.1 ∧ f e.2.1 = g e.2.1) : saves f b l = saves g b l := by
  induction l with
  | nil => rfl
  | cons e l ih =>
    have he := h e List.mem_cons_self
    change (_, _, f e.1) :: (_, _, f e.2.1) :: saves f b l = (_, _, g e.1) :: (_, _, g e.2.1) :: saves g b l
    rw [ih fun x hx => h x (List.mem_cons_of_mem _ hx), he.1, he.2]

theorem loads_congr {m m' : Mem} {a : Nat} {l : List (Nat × Nat × Nat)}
    (h : ∀ e ∈ l, rd m (a + e.2.2) 8 = rd m' (a + e.2.2) 8 ∧
      rd m (a + (e.2.2 + 8)) 8 = rd m' (a + (e.2.2 + 8)) 8) : loads m a l = loads m' a l := by
  induction l with
  | nil => rfl
  | cons e l ih =>
    have he := h e List.mem_cons_self
    change (_, rd m (a + e.2.2) 8) :: (_, rd m (a + (e.2.2 + 8)) 8) :: loads m a l =
      (_, rd m' (a + e.2.2) 8) :: (_, rd m' (a + (e.2.2 + 8)) 8) :: loads m' a l
    rw [ih fun x hx => h x (List.mem_cons_of_mem _ hx), he.1, he.2]

/-- The registers of the pairs are distinct from each other and from 0 and 1,
and the pairs lie within the first 176 bytes. -/
structure Fine (l : List (Nat × Nat × Nat)) : Prop where
  regs : ∀ e ∈ l, e.1 ≠ 0 ∧ e.1 ≠ 1 ∧ e.2.1 ≠ 0 ∧ e.2.1 ≠ 1 ∧ e.1 ≠ e.2.1 ∧ e.2.2 + 16 ≤ 176
  apart : l.Pairwise fun e f => e.1 ≠ f.1 ∧ e.1 ≠ f.2.1 ∧ e.2.1 ≠ f.1 ∧ e.2.1 ≠ f.2.1

theorem both_one {c : Cpu} {A B : Nat} (h0 : c.x 0 = A) (h1 : c.x 1 = B) (hA : A + 176 ≤ 2 ^ 64)
    (hB : B + 176 ≤ 2 ^ 64) (hAB : Apart B 176 A 176) {a b o : Nat} (ho : o + 16 ≤ 176)
    (rest : List Ins) :
    runIns c (.stp a b 1 o :: .ldp a b 0 o :: rest) = runIns { c with
      mem := wr (wr c.mem (B + o) 8 (c.x a)) (B + (o + 8)) 8 (c.x b)
      x := set (set c.x a (rd c.mem (A + o) 8)) b (rd c.mem (A + (o + 8)) 8) } rest := by
  unfold Apart at hAB
  rw [runIns, exec, addr_eq h1 (by omega), addr_eq h1 (by omega), runIns, exec,
    addr_eq (c := { c with mem := wr (wr c.mem (B + o) 8 (c.x a)) (B + (o + 8)) 8 (c.x b) }) h0
      (by omega),
    addr_eq (c := { c with mem := wr (wr c.mem (B + o) 8 (c.x a)) (B + (o + 8)) 8 (c.x b) }) h0
      (by omega)]
  dsimp only
  rw [rd_wr_apart (by unfold Apart; omega), rd_wr_apart (by unfold Apart; omega),
    rd_wr_apart (by unfold Apart; omega), rd_wr_apart (by unfold Apart; omega)]

theorem both_run {c : Cpu} {A B : Nat} (h0 : c.x 0 = A) (h1 : c.x 1 = B) (hA : A + 176 ≤ 2 ^ 64)
    (hB : B + 176 ≤ 2 ^ 64) (hAB : Apart B 176 A 176) (l : List (Nat × Nat × Nat)) (hl : Fine l)
    (rest : List Ins) :
    runIns c (l.flatMap both ++ rest) =
      runIns { c with mem := wrAll c.mem (saves c.x B l), x := setAll c.x (loads c.mem A l) } rest := by
  induction l generalizing c with
  | nil => rfl
  | cons e l ih =>
    obtain ⟨a, b, o⟩ := e
    have hr := hl.regs _ List.mem_cons_self
    dsimp only at hr
    have hp := hl.apart
    rw [List.pairwise_cons] at hp
    unfold Apart at hAB
    change runIns c (.stp a b 1 o :: .ldp a b 0 o :: (l.flatMap both ++ rest)) = _
    rw [both_one h0 h1 hA hB (by unfold Apart; omega) (by omega)]
    rw [ih (c := { c with
      mem := wr (wr c.mem (B + o) 8 (c.x a)) (B + (o + 8)) 8 (c.x b)
      x := set (set c.x a (rd c.mem (A + o) 8)) b (rd c.mem (A + (o + 8)) 8) })
      (by dsimp only; rw [set, if_neg (by omega), set, if_neg (by omega), h0])
      (by dsimp only; rw [set, if_neg (by omega), set, if_neg (by omega), h1])
      ⟨fun x hx => hl.regs x (List.mem_cons_of_mem _ hx), hp.2⟩]
    dsimp only
    rw [saves_congr (g := c.x), loads_congr (m' := c.mem)]
    · rfl
    · intro e he
      have q := hl.regs e (List.mem_cons_of_mem _ he)
      rw [rd_wr_apart (by unfold Apart; omega), rd_wr_apart (by unfold Apart; omega),
        rd_wr_apart (by unfold Apart; omega), rd_wr_apart (by unfold Apart; omega)]
      exact ⟨rfl, rfl⟩
    · intro e he
      have q := hp.1 e he
      dsimp only at q
      constructor <;> rw [set, if_neg (by omega), set, if_neg (by omega)]

theorem bothd_one {c : Cpu} {A B : Nat} (h0 : c.x 0 = A) (h1 : c.x 1 = B) (hA : A + 176 ≤ 2 ^ 64)
    (hB : B + 176 ≤ 2 ^ 64) (hAB : Apart B 176 A 176) {a b o : Nat} (ho : o + 16 ≤ 176)
    (rest : List Ins) :
    runIns c (.stpd a b 1 o :: .ldpd a b 0 o :: rest) = runIns { c with
      mem := wr (wr c.mem (B + o) 8 (c.d a)) (B + (o + 8)) 8 (c.d b)
      d := set (set c.d a (rd c.mem (A + o) 8)) b (rd c.mem (A + (o + 8)) 8) } rest := by
  unfold Apart at hAB
  rw [runIns, exec, addr_eq h1 (by omega), addr_eq h1 (by omega), runIns, exec,
    addr_eq (c := { c with mem := wr (wr c.mem (B + o) 8 (c.d a)) (B + (o + 8)) 8 (c.d b) }) h0
      (by omega),
    addr_eq (c := { c with mem := wr (wr c.mem (B + o) 8 (c.d a)) (B + (o + 8)) 8 (c.d b) }) h0
      (by omega)]
  dsimp only
  rw [rd_wr_apart (by unfold Apart; omega), rd_wr_apart (by unfold Apart; omega),
    rd_wr_apart (by unfold Apart; omega), rd_wr_apart (by unfold Apart; omega)]

theorem bothd_run {c : Cpu} {A B : Nat} (h0 : c.x 0 = A) (h1 : c.x 1 = B) (hA : A + 176 ≤ 2 ^ 64)
    (hB : B + 176 ≤ 2 ^ 64) (hAB : Apart B 176 A 176) (l : List (Nat × Nat × Nat)) (hl : Fine l)
    (rest : List Ins) :
    runIns c (l.flatMap bothd ++ rest) =
      runIns { c with mem := wrAll c.mem (saves c.d B l), d := setAll c.d (loads c.mem A l) } rest := by
  induction l generalizing c with
  | nil => rfl
  | cons e l ih =>
    obtain ⟨a, b, o⟩ := e
    have hr := hl.regs _ List.mem_cons_self
    dsimp only at hr
    have hp := hl.apart
    rw [List.pairwise_cons] at hp
    unfold Apart at hAB
    change runIns c (.stpd a b 1 o :: .ldpd a b 0 o :: (l.flatMap bothd ++ rest)) = _
    rw [bothd_one h0 h1 hA hB (by unfold Apart; omega) (by omega)]
    rw [ih (c := { c with
      mem := wr (wr c.mem (B + o) 8 (c.d a)) (B + (o + 8)) 8 (c.d b)
      d := set (set c.d a (rd c.mem (A + o) 8)) b (rd c.mem (A + (o + 8)) 8) }) h0 h1
      ⟨fun x hx => hl.regs x (List.mem_cons_of_mem _ hx), hp.2⟩]
    dsimp only
    rw [saves_congr (g := c.d), loads_congr (m' := c.mem)]
    · rfl
    · intro e he
      have q := hl.regs e (List.mem_cons_of_mem _ he)
      rw [rd_wr_apart (by unfold Apart; omega), rd_wr_apart (by unfold Apart; omega),
        rd_wr_apart (by unfold Apart; omega), rd_wr_apart (by unfold Apart; omega)]
      exact ⟨rfl, rfl⟩
    · intro e he
      have q := hp.1 e he
      dsimp only at q
      constructor <;> rw [set, if_neg (by omega), set, if_neg (by omega)]

theorem pairs_fine : Fine pairs := ⟨by decide, by decide⟩

theorem dpairs_fine : Fine dpairs := ⟨by decide, by decide⟩

/-- All stores, up to the part for Windows. -/
def allSaves (c : Cpu) : List (Nat × Nat × Nat) :=
  (c.x 1, 8, c.sp) :: (c.x 1 + 8, 8, c.x 30) :: (saves c.x (c.x 1) pairs ++
    ((c.x 1 + 96, 8, c.x 29) :: saves c.d (c.x 1) dpairs))

/-- All loads into general registers. -/
def allLoads (c : Cpu) : List (Nat × Nat) :=
  (16, rd c.mem (c.x 0) 8) :: (30, rd c.mem (c.x 0 + 8) 8) :: (loads c.mem (c.x 0) pairs ++
    [(29, rd c.mem (c.x 0 + 96) 8)])

/-- The state after the registers are exchanged. -/
def head (c : Cpu) : Cpu :=
  { c with
    mem := wrAll c.mem (allSaves c)
    x := setAll (set c.x 16 c.sp) (allLoads c)
    sp := rd c.mem (c.x 0) 8
    d := setAll c.d (loads c.mem (c.x 0) dpairs) }

theorem wrAll_append (m : Mem) (l l' : List (Nat × Nat × Nat)) :
    wrAll m (l ++ l') = wrAll (wrAll m l) l' := by
  induction l generalizing m with
  | nil => rfl
  | cons e l ih =>
    obtain ⟨a, n, v⟩ := e
    rw [List.cons_append, wrAll, wrAll, ih]

theorem setAll_append (f : Nat → Nat) (l l' : List (Nat × Nat)) :
    setAll f (l ++ l') = setAll (setAll f l) l' := by
  induction l generalizing f with
  | nil => rfl
  | cons e l ih =>
    obtain ⟨a, v⟩ := e
    rw [List.cons_append, setAll, setAll, ih]

theorem wrAll_apart_loads {m : Mem} {A B : Nat} (hAB : Apart B 176 A 176)
    {st : List (Nat × Nat × Nat)} (hst : ∀ e ∈ st, B ≤ e.1 ∧ e.1 + e.2.1 ≤ B + 176)
    {l : List (Nat × Nat × Nat)} (hl : Fine l) : loads (wrAll m st) A l = loads m A l := by
  unfold Apart at hAB
  refine loads_congr fun e he => ?_
  have q := hl.regs e he
  constructor <;> refine rd_wrAll_apart fun f hf => ?_ <;> have := hst f hf <;> unfold Apart <;> omega

theorem saves_within {f : Nat → Nat} {B : Nat} {l : List (Nat × Nat × Nat)} (hl : Fine l) :
    ∀ e ∈ saves f B l, B ≤ e.1 ∧ e.1 + e.2.1 ≤ B + 176 := by
  intro e he
  rw [saves, List.mem_flatMap] at he
  obtain ⟨p, hp, he⟩ := he
  have q := hl.regs p hp
  simp only [List.mem_cons, List.not_mem_nil, or_false] at he
  rcases he with rfl | rfl <;> dsimp only <;> omega

/-- The first four instructions. -/
theorem four {c : Cpu} (hA : c.x 0 + 176 ≤ 2 ^ 64) (hB : c.x 1 + 176 ≤ 2 ^ 64)
    (hAB : Apart (c.x 1) 176 (c.x 0) 176) (hsp : c.sp < 2 ^ 64) (rest : List Ins) :
    runIns c (.add 16 31 0 :: .stp 16 30 1 0 :: .ldp 16 30 0 0 :: .add 31 16 0 :: rest) =
      runIns { c with
        mem := wrAll c.mem [(c.x 1, 8, c.sp), (c.x 1 + 8, 8, c.x 30)]
        x := setAll (set c.x 16 c.sp) [(16, rd c.mem (c.x 0) 8), (30, rd c.mem (c.x 0 + 8) 8)]
        sp := rd c.mem (c.x 0) 8 } rest := by
  have e0 : exec c (.add 16 31 0) = { c with x := set c.x 16 c.sp } := by
    simp only [exec, if_true, Nat.add_zero]
    rw [if_neg (by decide), Nat.mod_eq_of_lt hsp]
  rw [runIns, e0, both_one (A := c.x 0) (B := c.x 1) (by simp [set]) (by simp [set]) hA hB hAB
    (by omega), runIns]
  dsimp only
  simp only [exec, set, if_true, Nat.add_zero, Nat.zero_add, wrAll, setAll]
  congr 1
  have : rd c.mem (c.x 0) 8 % 2 ^ 64 = rd c.mem (c.x 0) 8 := Nat.mod_eq_of_lt (rd_lt _ _ 8)
  simp [this]

theorem head_run {c : Cpu} (hA : c.x 0 + 176 ≤ 2 ^ 64) (hB : c.x 1 + 176 ≤ 2 ^ 64)
    (hAB : Apart (c.x 1) 176 (c.x 0) 176) (hsp : c.sp < 2 ^ 64) (rest : List Ins) :
    runIns c (insHead ++ rest) = runIns (head c) rest := by
  have hap : c.x 1 + 176 ≤ c.x 0 ∨ c.x 0 + 176 ≤ c.x 1 := hAB
  rw [insHead, List.append_assoc, List.append_assoc, List.append_assoc]
  change runIns c (.add 16 31 0 :: .stp 16 30 1 0 :: .ldp 16 30 0 0 :: .add 31 16 0 ::
    (pairs.flatMap both ++ (.str 29 1 96 :: .ldr 29 0 96 :: (dpairs.flatMap bothd ++ rest)))) = _
  rw [four hA hB hAB hsp, both_run (A := c.x 0) (B := c.x 1) (by simp [setAll, set])
    (by simp [setAll, set]) hA hB hAB pairs pairs_fine]
  dsimp only
  have w1 : ∀ e ∈ [(c.x 1, 8, c.sp), (c.x 1 + 8, 8, c.x 30)],
      c.x 1 ≤ e.1 ∧ e.1 + e.2.1 ≤ c.x 1 + 176 := by
    intro e he
    simp only [List.mem_cons, List.not_mem_nil, or_false] at he
    rcases he with rfl | rfl <;> dsimp only <;> omega
  have hr : ∀ e ∈ pairs, (19 ≤ e.1 ∧ e.1 ≤ 28) ∧ 19 ≤ e.2.1 ∧ e.2.1 ≤ 28 := by decide
  rw [wrAll_apart_loads hAB w1 pairs_fine, saves_congr (g := c.x) (by
    intro e he
    have q := hr e he
    constructor <;> simp only [setAll, set] <;>
      rw [if_neg (by omega), if_neg (by omega), if_neg (by omega)]), ← wrAll_append,
    ← setAll_append]
  obtain ⟨st, hst⟩ : ∃ st, [(c.x 1, 8, c.sp), (c.x 1 + 8, 8, c.x 30)] ++ saves c.x (c.x 1) pairs = st :=
    ⟨_, rfl⟩
  obtain ⟨ld, hld⟩ : ∃ ld, [(16, rd c.mem (c.x 0) 8), (30, rd c.mem (c.x 0 + 8) 8)] ++
    loads c.mem (c.x 0) pairs = ld := ⟨_, rfl⟩
  have w2 : ∀ e ∈ st, c.x 1 ≤ e.1 ∧ e.1 + e.2.1 ≤ c.x 1 + 176 := by
    intro e he
    rw [← hst, List.mem_append] at he
    rcases he with he | he
    · exact w1 e he
    · exact saves_within pairs_fine e he
  have ldr : ∀ e ∈ ld, e.1 ≠ 0 ∧ e.1 ≠ 1 ∧ e.1 ≠ 29 := by
    rw [← hld]
    simp [loads, pairs]
  have z0 : setAll (set c.x 16 c.sp) ld 0 = c.x 0 := by
    rw [setAll_out fun e he => (ldr e he).1]
    simp [set]
  have z1 : setAll (set c.x 16 c.sp) ld 1 = c.x 1 := by
    rw [setAll_out fun e he => (ldr e he).2.1]
    simp [set]
  have z29 : setAll (set c.x 16 c.sp) ld 29 = c.x 29 := by
    rw [setAll_out fun e he => (ldr e he).2.2]
    simp [set]
  rw [hst, hld, runIns, exec, addr_eq (a := c.x 1) z1 (by omega), runIns, exec,
    addr_eq (a := c.x 0) z0 (by omega)]
  dsimp only
  rw [z29, rd_wr_apart (by unfold Apart; omega), rd_wrAll_apart (fun e he => by
    have := w2 e he
    unfold Apart
    omega)]
  have w3 : ∀ e ∈ st ++ [(c.x 1 + 96, 8, c.x 29)], c.x 1 ≤ e.1 ∧ e.1 + e.2.1 ≤ c.x 1 + 176 := by
    intro e he
    rw [List.mem_append, List.mem_singleton] at he
    rcases he with he | rfl
    · exact w2 e he
    · dsimp only
      omega
  rw [bothd_run (A := c.x 0) (B := c.x 1) (by simp [set, z0]) (by simp [set, z1]) hA hB hAB dpairs
    dpairs_fine]
  dsimp only
  have e1 : wr (wrAll c.mem st) (c.x 1 + 96) 8 (c.x 29) =
      wrAll c.mem (st ++ [(c.x 1 + 96, 8, c.x 29)]) := by
    rw [wrAll_append]
    rfl
  have e2 : set (setAll (set c.x 16 c.sp) ld) 29 (rd c.mem (c.x 0 + 96) 8) =
      setAll (set c.x 16 c.sp) (ld ++ [(29, rd c.mem (c.x 0 + 96) 8)]) := by
    rw [setAll_append]
    rfl
  rw [e1, e2, wrAll_apart_loads hAB w3 dpairs_fine, ← wrAll_append, ← hst, ← hld]
  simp only [List.append_assoc]
  rfl

end Verif.Switch.A64
