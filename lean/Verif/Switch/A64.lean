import Verif.Switch.Blocks
import Verif.Switch.Tasks

/-!
# The machine code of `src/asm.c` for 64 bit ARM processors

`coro_swap_function` is an array of instruction words (`src/asm.c` lines
240-270).  They are decoded and executed here as for the x86 processors.
-/

namespace Verif.Switch.A64

open Verif.Switch

/-- The instructions that occur. -/
inductive Ins where
  /-- `add rd, rn, #imm`; register 31 is the stack pointer -/
  | add (rd rn imm : Nat)
  /-- `stp rt, rt2, [rn, #off]` -/
  | stp (rt rt2 rn off : Nat)
  /-- `ldp rt, rt2, [rn, #off]` -/
  | ldp (rt rt2 rn off : Nat)
  /-- `str rt, [rn, #off]` -/
  | str (rt rn off : Nat)
  /-- `ldr rt, [rn, #off]` -/
  | ldr (rt rn off : Nat)
  /-- `stp` of two floating point registers -/
  | stpd (rt rt2 rn off : Nat)
  /-- `ldp` of two floating point registers -/
  | ldpd (rt rt2 rn off : Nat)
  | br (rn : Nat)
deriving DecidableEq, Repr

/-- One instruction word.  Offsets that are negative, and register 31 in the
places where it does not occur, are not decoded. -/
def decode1 (w : Nat) : Option Ins :=
  let rt := w % 32
  let rn := w / 32 % 32
  let rt2 := w / 1024 % 32
  let imm7 := w / 32768 % 128
  let imm12 := w / 1024 % 4096
  let op := w / 4194304
  if op = 0x244 then some (.add rt rn imm12)
  else if w / 1024 = 0x3587c0 ∧ rt = 0 ∧ rn ≠ 31 then some (.br rn)
  else if rt = 31 ∨ rn = 31 then none
  else if op = 0x3e4 then some (.str rt rn (8 * imm12))
  else if op = 0x3e5 then some (.ldr rt rn (8 * imm12))
  else if rt2 = 31 ∨ 64 ≤ imm7 then none
  else if op = 0x2a4 then some (.stp rt rt2 rn (8 * imm7))
  else if op = 0x2a5 then some (.ldp rt rt2 rn (8 * imm7))
  else if op = 0x1b4 then some (.stpd rt rt2 rn (8 * imm7))
  else if op = 0x1b5 then some (.ldpd rt rt2 rn (8 * imm7))
  else none

def decode : List Nat → Option (List Ins)
  | [] => some []
  | w :: l =>
    match decode1 w, decode l with
    | some i, some is => some (i :: is)
    | _, _ => none

/-- `coro_swap_function`, up to the jump (`src/asm.c` lines 240-264). -/
def swapHead : List Nat := [
  0x910003f0, 0xa9007830, 0xa9407810, 0x9100021f,
  0xa9015033, 0xa9415013, 0xa9025835, 0xa9425815, 0xa9036037, 0xa9436017,
  0xa9046839, 0xa9446819, 0xa905703b, 0xa945701b, 0xf900303d, 0xf940301d,
  0x6d072428, 0x6d472408, 0x6d082c2a, 0x6d482c0a, 0x6d09342c, 0x6d49340c,
  0x6d0a3c2e, 0x6d4a3c0e]

/-- The part for Windows (`src/asm.c` lines 265-270). -/
def swapTib : List Nat := [0xa940c650, 0xa90b4430, 0xa94b4410, 0xa900c650]

/-- `src/asm.c` line 271. -/
def swapEnd : List Nat := [0xd61f03c0]

/-- A processor: registers 0 to 30, the stack pointer, the lower halves of the
floating point registers (only these have to be preserved). -/
structure Cpu where
  x : Nat → Nat
  sp : Nat
  d : Nat → Nat
  mem : Mem
  pc : Nat

/-- The address `x[n] + o`. -/
def addr (c : Cpu) (n o : Nat) : Nat := (c.x n + o) % 2 ^ 64

def exec (c : Cpu) : Ins → Cpu
  | .add t n imm =>
    let v := ((if n = 31 then c.sp else c.x n) + imm) % 2 ^ 64
    if t = 31 then { c with sp := v } else { c with x := set c.x t v }
  | .stp a b n o =>
    { c with mem := wr (wr c.mem (addr c n o) 8 (c.x a)) (addr c n (o + 8)) 8 (c.x b) }
  | .ldp a b n o =>
    { c with x := set (set c.x a (rd c.mem (addr c n o) 8)) b (rd c.mem (addr c n (o + 8)) 8) }
  | .str a n o => { c with mem := wr c.mem (addr c n o) 8 (c.x a) }
  | .ldr a n o => { c with x := set c.x a (rd c.mem (addr c n o) 8) }
  | .stpd a b n o =>
    { c with mem := wr (wr c.mem (addr c n o) 8 (c.d a)) (addr c n (o + 8)) 8 (c.d b) }
  | .ldpd a b n o =>
    { c with d := set (set c.d a (rd c.mem (addr c n o) 8)) b (rd c.mem (addr c n (o + 8)) 8) }
  | .br n => { c with pc := c.x n }

def runIns (c : Cpu) : List Ins → Cpu
  | [] => c
  | i :: l => runIns (exec c i) l

/-- Words, decoded and executed. -/
def runCode (code : List Nat) (c : Cpu) : Option Cpu :=
  match decode code with
  | none => none
  | some is => some (runIns c is)

/-- The pairs of registers, with their offset. -/
def pairs : List (Nat × Nat × Nat) :=
  [(19, 20, 16), (21, 22, 32), (23, 24, 48), (25, 26, 64), (27, 28, 80)]

def dpairs : List (Nat × Nat × Nat) :=
  [(8, 9, 112), (10, 11, 128), (12, 13, 144), (14, 15, 160)]

/-- A pair saved, and the same pair loaded. -/
def both (e : Nat × Nat × Nat) : List Ins := [.stp e.1 e.2.1 1 e.2.2, .ldp e.1 e.2.1 0 e.2.2]

def bothd (e : Nat × Nat × Nat) : List Ins := [.stpd e.1 e.2.1 1 e.2.2, .ldpd e.1 e.2.1 0 e.2.2]

/-- The decoded instructions, in groups. -/
def insHead : List Ins :=
  [.add 16 31 0, .stp 16 30 1 0, .ldp 16 30 0 0, .add 31 16 0] ++ (pairs.flatMap both ++
    ([.str 29 1 96, .ldr 29 0 96] ++ dpairs.flatMap bothd))

def insTib : List Ins := [.ldp 16 17 18 8, .stp 16 17 1 176, .ldp 16 17 0 176, .stp 16 17 18 8]

theorem decodes : decode (swapHead ++ swapEnd) = some (insHead ++ [.br 30]) := by decide +kernel

theorem decodes_win :
    decode (swapHead ++ swapTib ++ swapEnd) = some (insHead ++ (insTib ++ [.br 30])) := by
  decide +kernel

end Verif.Switch.A64
