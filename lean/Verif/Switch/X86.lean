import Verif.Switch.Bytes

/-!
# The machine code of `src/asm.c` for the x86 processors

`coro_swap_function` is an array of bytes in the C source.  The bytes are
copied here as they stand there, decoded, and executed on any machine state.
Decoded are the instructions that occur: a decoder for more would accept more
programs, but would not decode these ones differently.
-/

namespace Verif.Switch

/-- The instructions that occur, for a machine word of 4 or 8 bytes. -/
inductive Ins where
  /-- `mov [base+disp], r` -/
  | store (r base : Nat) (disp : Int)
  /-- `mov r, [base+disp]` -/
  | load (r base : Nat) (disp : Int)
  /-- `mov r, gs:[disp]` -/
  | loadGs (r disp : Nat)
  | pop (r : Nat)
  /-- `sub r, imm` -/
  | sub (r : Nat) (imm : Int)
  /-- `movaps`/`movups [base+disp], xmm` -/
  | storeX (aligned : Bool) (x base : Nat) (disp : Int)
  /-- `movaps`/`movups xmm, [base+disp]` -/
  | loadX (aligned : Bool) (x base : Nat) (disp : Int)
  | jmp (r : Nat)
deriving DecidableEq, Repr

/-- A signed byte. -/
def sbyte (b : Nat) : Int := if b < 128 then b else (b : Int) - 256

/-- The operands after the opcode: the register field, and either a register
or an address `base+disp`.  `r`, `b` are the extensions from the REX prefix. -/
inductive Opnd where
  | reg (n : Nat)
  | mem (base : Nat) (disp : Int)
  | abs (disp : Nat)
deriving DecidableEq, Repr

def modrm (rexR rexB : Nat) : List Nat → Option (Nat × Opnd × List Nat)
  | [] => none
  | m :: l =>
    let md := m / 64
    let rg := m / 8 % 8 + 8 * rexR
    let rm := m % 8
    if md = 3 then some (rg, .reg (rm + 8 * rexB), l)
    else if md = 0 ∧ rm = 4 then
      match l with
      | 0x25 :: d0 :: d1 :: d2 :: d3 :: l =>
        some (rg, .abs (d0 + 256 * d1 + 65536 * d2 + 16777216 * d3), l)
      | _ => none
    else if rm = 4 then none
    else if md = 0 then
      if rm = 5 then none else some (rg, .mem (rm + 8 * rexB) 0, l)
    else if md = 1 then
      match l with
      | d :: l => some (rg, .mem (rm + 8 * rexB) (sbyte d), l)
      | [] => none
    else none

/-- One instruction after its prefixes.  `w`: full machine words. -/
def opcode (w gs : Bool) (rexR rexB : Nat) : List Nat → Option (Ins × List Nat)
  | 0x89 :: l =>
    match w, gs, modrm rexR rexB l with
    | true, false, some (r, .mem b d, l) => some (.store r b d, l)
    | _, _, _ => none
  | 0x8b :: l =>
    match w, gs, modrm rexR rexB l with
    | true, false, some (r, .mem b d, l) => some (.load r b d, l)
    | true, true, some (r, .abs d, l) => some (.loadGs r d, l)
    | _, _, _ => none
  | 0x58 :: l => if gs then none else some (.pop (8 * rexB), l)
  | 0x83 :: l =>
    match w, gs, modrm rexR rexB l with
    | true, false, some (5, .reg r, i :: l) => some (.sub r (sbyte i), l)
    | _, _, _ => none
  | 0xff :: l =>
    match gs, modrm rexR rexB l with
    | false, some (4, .reg r, l) => some (.jmp r, l)
    | _, _ => none
  | 0x0f :: o :: l =>
    match gs, modrm rexR rexB l with
    | false, some (x, .mem b d, l) =>
      if o = 0x29 then some (.storeX true x b d, l)
      else if o = 0x28 then some (.loadX true x b d, l)
      else if o = 0x11 then some (.storeX false x b d, l)
      else if o = 0x10 then some (.loadX false x b d, l)
      else none
    | _, _ => none
  | _ => none

/-- One instruction with its prefixes, in 64 or 32 bit mode.  In 32 bit mode
there is no REX prefix, and operands are full words. -/
def decode1 (m64 : Bool) : List Nat → Option (Ins × List Nat)
  | [] => none
  | b :: l =>
    if b = 0x65 then
      match l with
      | [] => none
      | b :: l =>
        if m64 ∧ b / 16 = 4 then opcode (b / 8 % 2 == 1) true (b / 4 % 2) (b % 2) l
        else none
    else if m64 then
      if b / 16 = 4 then opcode (b / 8 % 2 == 1) false (b / 4 % 2) (b % 2) l
      else opcode false false 0 0 (b :: l)
    else opcode true false 0 0 (b :: l)

/-- The instructions up to the jump. -/
def decode (m64 : Bool) : Nat → List Nat → Option (List Ins)
  | 0, _ => none
  | n + 1, l =>
    match decode1 m64 l with
    | none => none
    | some (.jmp r, _) => some [.jmp r]
    | some (i, l) => (decode m64 n l).map (i :: ·)

/-- A processor.  General registers by number: `ax cx dx bx sp bp si di`, 8-15. -/
structure Cpu where
  reg : Nat → Nat
  xmm : Nat → Nat
  mem : Mem
  ip : Nat
  /-- base of the `gs` segment -/
  gs : Nat
  /-- the control bits of the SSE unit -/
  mxcsr : Nat
  /-- the control word of the x87 unit -/
  x87 : Nat

def set (f : Nat → Nat) (r v : Nat) : Nat → Nat := fun x => if x = r then v else f x

/-- The address `base+disp`, for words of `w` bytes. -/
def ea (w : Nat) (c : Cpu) (base : Nat) (disp : Int) : Nat :=
  (((c.reg base : Int) + disp) % (256 ^ w : Nat)).toNat

/-- One instruction; `none` is a fault of the processor (`movaps` at an
address not divisible by 16).  Whether memory may be accessed at all is left
to the caller: the ranges are those of tasks. -/
def exec (w : Nat) (c : Cpu) : Ins → Option Cpu
  | .store r b d => some { c with mem := wr c.mem (ea w c b d) w (c.reg r) }
  | .load r b d => some { c with reg := set c.reg r (rd c.mem (ea w c b d) w) }
  | .loadGs r d => some { c with reg := set c.reg r (rd c.mem (c.gs + d) w) }
  | .pop r => some { c with
      reg := set (set c.reg 4 ((c.reg 4 + w) % 256 ^ w)) r (rd c.mem (c.reg 4) w) }
  | .sub r i => some { c with reg := set c.reg r (((c.reg r : Int) - i) % (256 ^ w : Nat)).toNat }
  | .storeX al x b d =>
    if al ∧ ea w c b d % 16 ≠ 0 then none
    else some { c with mem := wr c.mem (ea w c b d) 16 (c.xmm x) }
  | .loadX al x b d =>
    if al ∧ ea w c b d % 16 ≠ 0 then none
    else some { c with xmm := set c.xmm x (rd c.mem (ea w c b d) 16) }
  | .jmp r => some { c with ip := c.reg r }

/-- Straight-line code. -/
def runIns (w : Nat) (c : Cpu) : List Ins → Option Cpu
  | [] => some c
  | i :: l =>
    match exec w c i with
    | none => none
    | some c => runIns w c l

/-- Machine code: decoded, then executed. -/
def runCode (m64 : Bool) (code : List Nat) (c : Cpu) : Option Cpu :=
  match decode m64 (code.length + 1) code with
  | none => none
  | some is => runIns (if m64 then 8 else 4) c is

/-- `coro_swap_function` for 64 bit System V (`src/asm.c` lines 142-158);
the array is filled up with zeros, which are never reached. -/
def sysvCode : List Nat := [
  0x48, 0x89, 0x26,
  0x48, 0x8b, 0x27,
  0x58,
  0x48, 0x89, 0x6e, 0x08,
  0x48, 0x89, 0x5e, 0x10,
  0x4c, 0x89, 0x66, 0x18,
  0x4c, 0x89, 0x6e, 0x20,
  0x4c, 0x89, 0x76, 0x28,
  0x4c, 0x89, 0x7e, 0x30,
  0x48, 0x8b, 0x6f, 0x08,
  0x48, 0x8b, 0x5f, 0x10,
  0x4c, 0x8b, 0x67, 0x18,
  0x4c, 0x8b, 0x6f, 0x20,
  0x4c, 0x8b, 0x77, 0x28,
  0x4c, 0x8b, 0x7f, 0x30,
  0xff, 0xe0]

/-- `coro_swap_function` for 32 bit (`src/asm.c` lines 13-26). -/
def i386Code : List Nat := [
  0x89, 0x22,
  0x8b, 0x21,
  0x58,
  0x89, 0x6a, 0x04,
  0x89, 0x72, 0x08,
  0x89, 0x7a, 0x0c,
  0x89, 0x5a, 0x10,
  0x8b, 0x69, 0x04,
  0x8b, 0x71, 0x08,
  0x8b, 0x79, 0x0c,
  0x8b, 0x59, 0x10,
  0xff, 0xe0]

/-- `coro_swap_function` for 64 bit Windows (`src/asm.c` lines 75-128), with
neither `NO_SSE` nor `NO_TIB` (the default, `src/events_internal.h` lines
92-101). -/
def win64Code : List Nat := [
  0x48, 0x89, 0x22,
  0x48, 0x8b, 0x21,
  0x58,
  0x48, 0x83, 0xe9, 0x80,
  0x48, 0x83, 0xea, 0x80,
  0x48, 0x89, 0x6a, 0x88,
  0x48, 0x89, 0x72, 0x90,
  0x48, 0x89, 0x7a, 0x98,
  0x48, 0x89, 0x5a, 0xa0,
  0x4c, 0x89, 0x62, 0xa8,
  0x4c, 0x89, 0x6a, 0xb0,
  0x4c, 0x89, 0x72, 0xb8,
  0x4c, 0x89, 0x7a, 0xc0,
  0x0f, 0x29, 0x72, 0xd0,
  0x0f, 0x29, 0x7a, 0xe0,
  0x44, 0x0f, 0x29, 0x42, 0xf0,
  0x44, 0x0f, 0x29, 0x0a,
  0x44, 0x0f, 0x29, 0x52, 0x10,
  0x44, 0x0f, 0x29, 0x5a, 0x20,
  0x44, 0x0f, 0x29, 0x62, 0x30,
  0x44, 0x0f, 0x29, 0x6a, 0x40,
  0x44, 0x0f, 0x29, 0x72, 0x50,
  0x44, 0x0f, 0x29, 0x7a, 0x60,
  0x48, 0x8b, 0x69, 0x88,
  0x48, 0x8b, 0x71, 0x90,
  0x48, 0x8b, 0x79, 0x98,
  0x48, 0x8b, 0x59, 0xa0,
  0x4c, 0x8b, 0x61, 0xa8,
  0x4c, 0x8b, 0x69, 0xb0,
  0x4c, 0x8b, 0x71, 0xb8,
  0x4c, 0x8b, 0x79, 0xc0,
  0x0f, 0x28, 0x71, 0xd0,
  0x0f, 0x28, 0x79, 0xe0,
  0x44, 0x0f, 0x28, 0x41, 0xf0,
  0x44, 0x0f, 0x28, 0x09,
  0x44, 0x0f, 0x28, 0x51, 0x10,
  0x44, 0x0f, 0x28, 0x59, 0x20,
  0x44, 0x0f, 0x28, 0x61, 0x30,
  0x44, 0x0f, 0x28, 0x69, 0x40,
  0x44, 0x0f, 0x28, 0x71, 0x50,
  0x44, 0x0f, 0x28, 0x79, 0x60,
  0x65, 0x4c, 0x8b, 0x04, 0x25,
  0x30, 0x00, 0x00, 0x00,
  0x41, 0x0f, 0x10, 0x40, 0x08,
  0x0f, 0x29, 0x42, 0x70,
  0x0f, 0x28, 0x41, 0x70,
  0x41, 0x0f, 0x11, 0x40, 0x08,
  0xff, 0xe0]

theorem sysv_decodes : decode true (sysvCode.length + 1) sysvCode = some [
    .store 4 6 0, .load 4 7 0, .pop 0,
    .store 5 6 8, .store 3 6 16, .store 12 6 24, .store 13 6 32, .store 14 6 40, .store 15 6 48,
    .load 5 7 8, .load 3 7 16, .load 12 7 24, .load 13 7 32, .load 14 7 40, .load 15 7 48,
    .jmp 0] := by decide +kernel

theorem i386_decodes : decode false (i386Code.length + 1) i386Code = some [
    .store 4 2 0, .load 4 1 0, .pop 0,
    .store 5 2 4, .store 6 2 8, .store 7 2 12, .store 3 2 16,
    .load 5 1 4, .load 6 1 8, .load 7 1 12, .load 3 1 16,
    .jmp 0] := by decide +kernel

theorem win64_decodes : decode true (win64Code.length + 1) win64Code = some [
    .store 4 2 0, .load 4 1 0, .pop 0, .sub 1 (-128), .sub 2 (-128),
    .store 5 2 (-0x78), .store 6 2 (-0x70), .store 7 2 (-0x68), .store 3 2 (-0x60),
    .store 12 2 (-0x58), .store 13 2 (-0x50), .store 14 2 (-0x48), .store 15 2 (-0x40),
    .storeX true 6 2 (-0x30), .storeX true 7 2 (-0x20), .storeX true 8 2 (-0x10),
    .storeX true 9 2 0, .storeX true 10 2 0x10, .storeX true 11 2 0x20, .storeX true 12 2 0x30,
    .storeX true 13 2 0x40, .storeX true 14 2 0x50, .storeX true 15 2 0x60,
    .load 5 1 (-0x78), .load 6 1 (-0x70), .load 7 1 (-0x68), .load 3 1 (-0x60),
    .load 12 1 (-0x58), .load 13 1 (-0x50), .load 14 1 (-0x48), .load 15 1 (-0x40),
    .loadX true 6 1 (-0x30), .loadX true 7 1 (-0x20), .loadX true 8 1 (-0x10),
    .loadX true 9 1 0, .loadX true 10 1 0x10, .loadX true 11 1 0x20, .loadX true 12 1 0x30,
    .loadX true 13 1 0x40, .loadX true 14 1 0x50, .loadX true 15 1 0x60,
    .loadGs 8 0x30, .loadX false 0 8 8, .storeX true 0 2 0x70, .loadX true 0 1 0x70,
    .storeX false 0 8 8, .jmp 0] := by decide +kernel

end Verif.Switch
