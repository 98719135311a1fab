import Verif.Switch.Blocks

/-!
# What the 64 bit 32 bit code does, as a whole
-/

namespace Verif.Switch

/-- Register and offset, as the 32 bit code saves them. -/
def i386Slots : List (Nat × Int) := [(5, 4), (6, 8), (7, 12), (3, 16)]

theorem i386_run {c : Cpu} (hA : c.reg 1 + 20 ≤ 2 ^ 32) (hB : c.reg 2 + 20 ≤ 2 ^ 32) :
    runCode false i386Code c =
      (let m1 := wr c.mem (c.reg 2) 4 (c.reg 4)
       let m2 := wrAll m1 (i386Slots.map fun e => (off (c.reg 2) e.2, 4, c.reg e.1))
       let sp := rd m1 (c.reg 1) 4
       some { c with
          mem := m2
          ip := rd m1 sp 4
          reg := setAll (set (set (set c.reg 4 sp) 4 ((sp + 4) % 256 ^ 4)) 0 (rd m1 sp 4))
            (i386Slots.map fun e => (e.1, rd m2 (off (c.reg 1) e.2) 4)) }) := by
  have bA : ∀ e ∈ i386Slots, 0 ≤ (c.reg 1 : Int) + e.2 ∧ (c.reg 1 : Int) + e.2 < (256 ^ 4 : Nat) := by
    simp [i386Slots]; omega
  have bB : ∀ e ∈ i386Slots, 0 ≤ (c.reg 2 : Int) + e.2 ∧ (c.reg 2 : Int) + e.2 < (256 ^ 4 : Nat) := by
    simp [i386Slots]; omega
  rw [runCode, i386_decodes]
  change runIns 4 c ([.store 4 2 0, .load 4 1 0, .pop 0] ++
    (i386Slots.map (fun e => .store e.1 2 e.2) ++
    (i386Slots.map (fun e => .load e.1 1 e.2) ++ [.jmp 0]))) = _
  rw [List.cons_append, runIns, exec, ea_off rfl (by omega) (by omega)]
  dsimp only
  rw [List.cons_append, runIns, exec, ea_off rfl (by dsimp only; omega) (by dsimp only; omega)]
  dsimp only
  rw [List.cons_append, runIns, exec]
  dsimp only
  rw [List.nil_append, stores (a := c.reg 2) (by simp [set]) _ _ bB,
    loads (a := c.reg 1) (by simp [set]) _ _ bA (by decide)]
  simp only [runIns, exec, setAll_out (r := 0)
    (l := (i386Slots.map fun e => (e.1, rd _ (off (c.reg 1) e.2) 4))) (by simp [i386Slots])]
  simp [off, set, i386Slots]

end Verif.Switch
