import Verif.Switch.X86
import Verif.Switch.Tasks

/-!
# What it means that a call has returned, on x86 processors
-/

namespace Verif.Switch

/-- A call made in `s` (at the first instruction of the callee, the return
address on top of the stack) has returned in `t`: execution is at the return
address, the return address has been taken from the stack, and the registers
in `kept` are as before. -/
structure Returned (w : Nat) (kept : List Nat) (s t : Cpu) : Prop where
  ip : t.ip = rd s.mem (s.reg 4) w
  sp : t.reg 4 = s.reg 4 + w
  regs : ∀ r ∈ kept, t.reg r = s.reg r

theorem within_one {a n x : Nat} : Within [(a, n)] x ↔ a ≤ x ∧ x < a + n := by
  simp [Within]

theorem rd_same {m m' : Mem} {l : List (Nat × Nat)} (h : Same l m m') {a n b k : Nat}
    (he : (a, n) ∈ l) (h1 : a ≤ b) (h2 : b + k ≤ a + n) : rd m b k = rd m' b k :=
  rd_congr fun x h3 h4 => h x ⟨(a, n), he, by dsimp only; omega, by dsimp only; omega⟩

end Verif.Switch
