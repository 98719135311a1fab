import Verif.Switch.Blocks

/-!
# What the 64 bit System V code does, as a whole
-/

namespace Verif.Switch

/-- Register and offset, as the System V code saves them. -/
def sysvSlots : List (Nat × Int) := [(5, 8), (3, 16), (12, 24), (13, 32), (14, 40), (15, 48)]

theorem sysv_run {c : Cpu} (hA : c.reg 7 + 56 ≤ 2 ^ 64) (hB : c.reg 6 + 56 ≤ 2 ^ 64) :
    runCode true sysvCode c =
      (let m1 := wr c.mem (c.reg 6) 8 (c.reg 4)
       let m2 := wrAll m1 (sysvSlots.map fun e => (off (c.reg 6) e.2, 8, c.reg e.1))
       let sp := rd m1 (c.reg 7) 8
       some { c with
          mem := m2
          ip := rd m1 sp 8
          reg := setAll (set (set (set c.reg 4 sp) 4 ((sp + 8) % 256 ^ 8)) 0 (rd m1 sp 8))
            (sysvSlots.map fun e => (e.1, rd m2 (off (c.reg 7) e.2) 8)) }) := by
  have bA : ∀ e ∈ sysvSlots, 0 ≤ (c.reg 7 : Int) + e.2 ∧ (c.reg 7 : Int) + e.2 < (256 ^ 8 : Nat) := by
    simp [sysvSlots]; omega
  have bB : ∀ e ∈ sysvSlots, 0 ≤ (c.reg 6 : Int) + e.2 ∧ (c.reg 6 : Int) + e.2 < (256 ^ 8 : Nat) := by
    simp [sysvSlots]; omega
  rw [runCode, sysv_decodes]
  change runIns 8 c ([.store 4 6 0, .load 4 7 0, .pop 0] ++
    (sysvSlots.map (fun e => .store e.1 6 e.2) ++
    (sysvSlots.map (fun e => .load e.1 7 e.2) ++ [.jmp 0]))) = _
  rw [List.cons_append, runIns, exec, ea_off rfl (by omega) (by omega)]
  dsimp only
  rw [List.cons_append, runIns, exec, ea_off rfl (by dsimp only; omega) (by dsimp only; omega)]
  dsimp only
  rw [List.cons_append, runIns, exec]
  dsimp only
  rw [List.nil_append, stores (a := c.reg 6) (by simp [set]) _ _ bB,
    loads (a := c.reg 7) (by simp [set]) _ _ bA (by decide)]
  simp only [runIns, exec, setAll_out (r := 0)
    (l := (sysvSlots.map fun e => (e.1, rd _ (off (c.reg 7) e.2) 8))) (by simp [sysvSlots])]
  simp [off, set, sysvSlots]

end Verif.Switch
