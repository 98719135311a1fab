import Verif.Switch.X86

/-!
# Sequences of loads and of stores
-/

namespace Verif.Switch

/-- `a + d` as an address. -/
def off (a : Nat) (d : Int) : Nat := ((a : Int) + d).toNat

theorem ea_off {w : Nat} {c : Cpu} {b a : Nat} {d : Int} (hb : c.reg b = a)
    (h0 : 0 ≤ (a : Int) + d) (h1 : (a : Int) + d < (256 ^ w : Nat)) : ea w c b d = off a d := by
  unfold ea off
  rw [hb, Int.emod_eq_of_lt h0 h1]

/-- Set several registers. -/
def setAll (f : Nat → Nat) : List (Nat × Nat) → Nat → Nat
  | [] => f
  | (r, v) :: l => setAll (set f r v) l

theorem setAll_out {f : Nat → Nat} {l : List (Nat × Nat)} {r : Nat} (h : ∀ e ∈ l, e.1 ≠ r) :
    setAll f l r = f r := by
  induction l generalizing f with
  | nil => rfl
  | cons e l ih =>
    obtain ⟨x, v⟩ := e
    rw [setAll, ih fun e he => h e (List.mem_cons_of_mem _ he), set,
      if_neg (fun q => h _ List.mem_cons_self q.symm)]

theorem setAll_mem {f : Nat → Nat} {l : List (Nat × Nat)} {r v : Nat}
    (hp : l.Pairwise fun e f => e.1 ≠ f.1) (h : (r, v) ∈ l) : setAll f l r = v := by
  induction l generalizing f with
  | nil => simp at h
  | cons e l ih =>
    rw [List.pairwise_cons] at hp
    rw [List.mem_cons] at h
    rcases h with rfl | h
    · rw [setAll, setAll_out fun e he => (hp.1 e he).symm, set, if_pos rfl]
    · obtain ⟨x, u⟩ := e
      rw [setAll]
      exact ih hp.2 h

theorem stores {w : Nat} {c : Cpu} {b a : Nat} (hb : c.reg b = a) (l : List (Nat × Int))
    (rest : List Ins) (h : ∀ e ∈ l, 0 ≤ (a : Int) + e.2 ∧ (a : Int) + e.2 < (256 ^ w : Nat)) :
    runIns w c (l.map (fun e => .store e.1 b e.2) ++ rest) =
      runIns w { c with mem := wrAll c.mem (l.map fun e => (off a e.2, w, c.reg e.1)) } rest := by
  induction l generalizing c with
  | nil => rfl
  | cons e l ih =>
    have he := h e List.mem_cons_self
    rw [List.map_cons, List.cons_append, runIns, exec, ea_off hb he.1 he.2]
    dsimp only
    exact ih hb fun x hx => h x (List.mem_cons_of_mem _ hx)

theorem loads {w : Nat} {c : Cpu} {b a : Nat} (hb : c.reg b = a) (l : List (Nat × Int))
    (rest : List Ins) (h : ∀ e ∈ l, 0 ≤ (a : Int) + e.2 ∧ (a : Int) + e.2 < (256 ^ w : Nat))
    (hn : ∀ e ∈ l, e.1 ≠ b) :
    runIns w c (l.map (fun e => .load e.1 b e.2) ++ rest) =
      runIns w { c with reg := setAll c.reg (l.map fun e => (e.1, rd c.mem (off a e.2) w)) } rest := by
  induction l generalizing c with
  | nil => rfl
  | cons e l ih =>
    have he := h e List.mem_cons_self
    rw [List.map_cons, List.cons_append, runIns, exec, ea_off hb he.1 he.2]
    dsimp only
    exact ih (c := { c with reg := set c.reg e.1 (rd c.mem (off a e.2) w) })
      (by
        dsimp only
        rw [set, if_neg (hn e List.mem_cons_self).symm]
        exact hb)
      (fun x hx => h x (List.mem_cons_of_mem _ hx))
      (fun x hx => hn x (List.mem_cons_of_mem _ hx))

theorem storesX {w : Nat} {c : Cpu} {b a : Nat} (hb : c.reg b = a) (l : List (Nat × Int))
    (rest : List Ins) (h : ∀ e ∈ l, 0 ≤ (a : Int) + e.2 ∧ (a : Int) + e.2 < (256 ^ w : Nat))
    (ha : ∀ e ∈ l, off a e.2 % 16 = 0) :
    runIns w c (l.map (fun e => .storeX true e.1 b e.2) ++ rest) =
      runIns w { c with mem := wrAll c.mem (l.map fun e => (off a e.2, 16, c.xmm e.1)) } rest := by
  induction l generalizing c with
  | nil => rfl
  | cons e l ih =>
    have he := h e List.mem_cons_self
    rw [List.map_cons, List.cons_append, runIns, exec, ea_off hb he.1 he.2,
      if_neg (fun q => q.2 (ha e List.mem_cons_self))]
    dsimp only
    exact ih hb (fun x hx => h x (List.mem_cons_of_mem _ hx))
      (fun x hx => ha x (List.mem_cons_of_mem _ hx))

theorem loadsX {w : Nat} {c : Cpu} {b a : Nat} (hb : c.reg b = a) (l : List (Nat × Int))
    (rest : List Ins) (h : ∀ e ∈ l, 0 ≤ (a : Int) + e.2 ∧ (a : Int) + e.2 < (256 ^ w : Nat))
    (ha : ∀ e ∈ l, off a e.2 % 16 = 0) :
    runIns w c (l.map (fun e => .loadX true e.1 b e.2) ++ rest) =
      runIns w { c with xmm := setAll c.xmm (l.map fun e => (e.1, rd c.mem (off a e.2) 16)) }
        rest := by
  induction l generalizing c with
  | nil => rfl
  | cons e l ih =>
    have he := h e List.mem_cons_self
    rw [List.map_cons, List.cons_append, runIns, exec, ea_off hb he.1 he.2,
      if_neg (fun q => q.2 (ha e List.mem_cons_self))]
    dsimp only
    exact ih (c := { c with xmm := set c.xmm e.1 (rd c.mem (off a e.2) 16) }) hb
      (fun x hx => h x (List.mem_cons_of_mem _ hx)) (fun x hx => ha x (List.mem_cons_of_mem _ hx))

end Verif.Switch
