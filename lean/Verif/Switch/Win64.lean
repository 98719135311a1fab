import Verif.Switch.Blocks

/-!
# What the 64 bit Windows code does, as a whole
-/

namespace Verif.Switch

/-- Register and offset from the middle of the memory for registers. -/
def winSlots : List (Nat × Int) :=
  [(5, -0x78), (6, -0x70), (7, -0x68), (3, -0x60), (12, -0x58), (13, -0x50), (14, -0x48),
    (15, -0x40)]

/-- The same for the vector registers. -/
def winSlotsX : List (Nat × Int) :=
  [(6, -0x30), (7, -0x20), (8, -0x10), (9, 0), (10, 0x10), (11, 0x20), (12, 0x30), (13, 0x40),
    (14, 0x50), (15, 0x60)]

/-- Memory after the first store. -/
def winM1 (c : Cpu) : Mem := wr c.mem (c.reg 2) 8 (c.reg 4)

/-- Memory after all registers are saved. -/
def winM3 (c : Cpu) : Mem :=
  wrAll (wrAll (winM1 c) (winSlots.map fun e => (off (c.reg 2 + 128) e.2, 8, c.reg e.1)))
    (winSlotsX.map fun e => (off (c.reg 2 + 128) e.2, 16, c.xmm e.1))

/-- Where the description of the thread is. -/
def winTeb (c : Cpu) : Nat := rd (winM3 c) (c.gs + 0x30) 8

/-- Memory after the bounds of the stack are saved. -/
def winM4 (c : Cpu) : Mem :=
  wr (winM3 c) (c.reg 2 + 240) 16 (rd (winM3 c) (winTeb c + 8) 16)

/-- The registers after the first five instructions. -/
def winReg1 (c : Cpu) : Nat → Nat :=
  set (set (set (set (set c.reg 4 (rd (winM1 c) (c.reg 1) 8)) 4
      ((rd (winM1 c) (c.reg 1) 8 + 8) % 256 ^ 8)) 0 (rd (winM1 c) (rd (winM1 c) (c.reg 1) 8) 8))
      1 (c.reg 1 + 128)) 2 (c.reg 2 + 128)

/-- The registers after the registers of the other task are loaded. -/
def winReg2 (c : Cpu) : Nat → Nat :=
  setAll (winReg1 c) (winSlots.map fun e => (e.1, rd (winM3 c) (off (c.reg 1 + 128) e.2) 8))

/-- The registers after the switch. -/
def winReg (c : Cpu) : Nat → Nat := set (winReg2 c) 8 (winTeb c)

/-- The vector registers after the switch. -/
def winXmm (c : Cpu) : Nat → Nat :=
  set (set (setAll c.xmm (winSlotsX.map fun e => (e.1, rd (winM3 c) (off (c.reg 1 + 128) e.2) 16)))
    0 (rd (winM3 c) (winTeb c + 8) 16)) 0 (rd (winM4 c) (c.reg 1 + 240) 16)

/-- The state after the switch. -/
def winAfter (c : Cpu) : Cpu :=
  { c with
    reg := winReg c
    xmm := winXmm c
    mem := wr (winM4 c) (winTeb c + 8) 16 (rd (winM4 c) (c.reg 1 + 240) 16)
    ip := rd (winM1 c) (rd (winM1 c) (c.reg 1) 8) 8 }

theorem runIns_cons {w : Nat} {c c' : Cpu} {i : Ins} {l : List Ins} (h : exec w c i = some c') :
    runIns w c (i :: l) = runIns w c' l := by
  rw [runIns, h]

theorem off_mod {a d : Nat} (e : Int) (he : e = d) : off a e = a + d := by
  unfold off
  omega

theorem sub_neg {c : Cpu} {r a : Nat} (h : c.reg r = a) (hb : a + 256 ≤ 2 ^ 64) :
    exec 8 c (.sub r (-128)) = some { c with reg := set c.reg r (a + 128) } := by
  have e : (((c.reg r : Int) - (-128)) % (256 ^ 8 : Nat)).toNat = a + 128 := by
    rw [h]
    omega
  rw [exec, e]

theorem win_head {c : Cpu} (hA : c.reg 1 + 256 ≤ 2 ^ 64) (hB : c.reg 2 + 256 ≤ 2 ^ 64)
    (rest : List Ins) :
    runIns 8 c (.store 4 2 0 :: .load 4 1 0 :: .pop 0 :: .sub 1 (-128) :: .sub 2 (-128) :: rest) =
      runIns 8 { c with reg := winReg1 c, mem := winM1 c } rest := by
  rw [runIns, exec, ea_off rfl (by omega) (by omega), off_mod (d := 0) 0 rfl]
  dsimp only
  rw [runIns, exec, ea_off rfl (by dsimp only; omega) (by dsimp only; omega),
    off_mod (d := 0) 0 rfl]
  dsimp only
  rw [runIns, exec]
  dsimp only
  rw [runIns_cons (sub_neg (a := c.reg 1) (by simp [set]) hA),
    runIns_cons (sub_neg (a := c.reg 2) (by simp [set]) hB)]
  simp only [Nat.add_zero, winReg1, winM1, set, if_true]

theorem win_mid {c : Cpu} {reg1 : Nat → Nat} {m1 : Mem} {A B : Nat} (h1 : reg1 1 = A + 128)
    (h2 : reg1 2 = B + 128) (hA : A + 256 ≤ 2 ^ 64) (hB : B + 256 ≤ 2 ^ 64) (alA : A % 16 = 0)
    (alB : B % 16 = 0) (rest : List Ins) :
    runIns 8 { c with reg := reg1, mem := m1 } (winSlots.map (fun e => .store e.1 2 e.2) ++
      (winSlotsX.map (fun e => .storeX true e.1 2 e.2) ++
      (winSlots.map (fun e => .load e.1 1 e.2) ++
      (winSlotsX.map (fun e => .loadX true e.1 1 e.2) ++ rest)))) =
    (let m3 := wrAll (wrAll m1 (winSlots.map fun e => (off (B + 128) e.2, 8, reg1 e.1)))
      (winSlotsX.map fun e => (off (B + 128) e.2, 16, c.xmm e.1))
     runIns 8 { c with
       mem := m3
       reg := setAll reg1 (winSlots.map fun e => (e.1, rd m3 (off (A + 128) e.2) 8))
       xmm := setAll c.xmm (winSlotsX.map fun e => (e.1, rd m3 (off (A + 128) e.2) 16)) } rest) := by
  have bA : ∀ e ∈ winSlots, 0 ≤ ((A + 128 : Nat) : Int) + e.2 ∧
      ((A + 128 : Nat) : Int) + e.2 < (256 ^ 8 : Nat) := by
    simp [winSlots]; omega
  have bB : ∀ e ∈ winSlots, 0 ≤ ((B + 128 : Nat) : Int) + e.2 ∧
      ((B + 128 : Nat) : Int) + e.2 < (256 ^ 8 : Nat) := by
    simp [winSlots]; omega
  have bAX : ∀ e ∈ winSlotsX, 0 ≤ ((A + 128 : Nat) : Int) + e.2 ∧
      ((A + 128 : Nat) : Int) + e.2 < (256 ^ 8 : Nat) := by
    simp [winSlotsX]; omega
  have bBX : ∀ e ∈ winSlotsX, 0 ≤ ((B + 128 : Nat) : Int) + e.2 ∧
      ((B + 128 : Nat) : Int) + e.2 < (256 ^ 8 : Nat) := by
    simp [winSlotsX]; omega
  have aA : ∀ e ∈ winSlotsX, off (A + 128) e.2 % 16 = 0 := by
    simp [winSlotsX, off]; omega
  have aB : ∀ e ∈ winSlotsX, off (B + 128) e.2 % 16 = 0 := by
    simp [winSlotsX, off]; omega
  rw [stores (a := B + 128) h2 _ _ bB, storesX (a := B + 128) h2 _ _ bBX aB,
    loads (a := A + 128) h1 _ _ bA (by decide),
    loadsX (a := A + 128) ((setAll_out (by simp [winSlots])).trans h1) _ _ bAX aA]

theorem win_tail {d : Cpu} {A B : Nat} (h1 : d.reg 1 = A + 128) (h2 : d.reg 2 = B + 128)
    (hA : A + 256 ≤ 2 ^ 64) (hB : B + 256 ≤ 2 ^ 64) (alA : A % 16 = 0) (alB : B % 16 = 0) {T : Nat}
    (hT : rd d.mem (d.gs + 0x30) 8 = T) (hT' : T + 24 ≤ 2 ^ 64) :
    runIns 8 d [.loadGs 8 0x30, .loadX false 0 8 8, .storeX true 0 2 0x70, .loadX true 0 1 0x70,
        .storeX false 0 8 8, .jmp 0] =
      (let x0 := rd d.mem (T + 8) 16
       let m4 := wr d.mem (B + 240) 16 x0
       let x1 := rd m4 (A + 240) 16
       some { d with
        reg := set d.reg 8 T
        xmm := set (set d.xmm 0 x0) 0 x1
        mem := wr m4 (T + 8) 16 x1
        ip := d.reg 0 }) := by
  have g8 : (set d.reg 8 T) 8 = T := by simp [set]
  have g1 : (set d.reg 8 T) 1 = A + 128 := by simp [set, h1]
  have g2 : (set d.reg 8 T) 2 = B + 128 := by simp [set, h2]
  have g0 : (set d.reg 8 T) 0 = d.reg 0 := by simp [set]
  rw [runIns, exec, hT]
  dsimp only
  generalize set d.reg 8 T = R at *
  rw [runIns, exec, if_neg (by simp), ea_off (a := T) g8 (by omega) (by omega),
    off_mod (d := 8) 8 rfl]
  dsimp only
  rw [runIns, exec, ea_off (a := B + 128) g2 (by omega) (by omega),
    off_mod (d := 0x70) 0x70 rfl, if_neg (by omega)]
  dsimp only
  rw [runIns, exec, ea_off (a := A + 128) g1 (by omega) (by omega),
    off_mod (d := 0x70) 0x70 rfl, if_neg (by omega)]
  dsimp only
  rw [runIns, exec, if_neg (by simp), ea_off (a := T) g8 (by omega) (by omega),
    off_mod (d := 8) 8 rfl]
  dsimp only
  rw [runIns, exec]
  dsimp only
  rw [runIns, g0]
  simp only [set, if_true, Nat.add_assoc, Nat.reduceAdd]

theorem win_run {c : Cpu} (hA : c.reg 1 + 256 ≤ 2 ^ 64) (hB : c.reg 2 + 256 ≤ 2 ^ 64)
    (alA : c.reg 1 % 16 = 0) (alB : c.reg 2 % 16 = 0) (hT : winTeb c + 24 ≤ 2 ^ 64) :
    runCode true win64Code c = some (winAfter c) := by
  rw [runCode, win64_decodes]
  change runIns 8 c (.store 4 2 0 :: .load 4 1 0 :: .pop 0 :: .sub 1 (-128) :: .sub 2 (-128) ::
    (winSlots.map (fun e => .store e.1 2 e.2) ++
    (winSlotsX.map (fun e => .storeX true e.1 2 e.2) ++
    (winSlots.map (fun e => .load e.1 1 e.2) ++
    (winSlotsX.map (fun e => .loadX true e.1 1 e.2) ++
      [.loadGs 8 0x30, .loadX false 0 8 8, .storeX true 0 2 0x70, .loadX true 0 1 0x70,
        .storeX false 0 8 8, .jmp 0]))))) = _
  have e1 : winReg1 c 1 = c.reg 1 + 128 := by simp [winReg1, set]
  have e2 : winReg1 c 2 = c.reg 2 + 128 := by simp [winReg1, set]
  have e3 : ∀ e ∈ winSlots, winReg1 c e.1 = c.reg e.1 := by
    simp [winSlots, winReg1, set]
  rw [win_head hA hB, win_mid e1 e2 hA hB alA alB]
  dsimp only
  have e4 : (winSlots.map fun e => (off (c.reg 2 + 128) e.2, 8, winReg1 c e.1)) =
      winSlots.map fun e => (off (c.reg 2 + 128) e.2, 8, c.reg e.1) :=
    List.map_congr_left fun e he => by rw [e3 e he]
  rw [e4]
  have f1 : winReg2 c 1 = c.reg 1 + 128 := (setAll_out (by simp [winSlots])).trans e1
  have f2 : winReg2 c 2 = c.reg 2 + 128 := (setAll_out (by simp [winSlots])).trans e2
  have f0 : winReg2 c 0 = rd (winM1 c) (rd (winM1 c) (c.reg 1) 8) 8 := by
    rw [winReg2, setAll_out (by simp [winSlots])]
    simp [winReg1, set]
  have q := win_tail (d := { c with
    mem := winM3 c
    reg := winReg2 c
    xmm := setAll c.xmm
      (winSlotsX.map fun e => (e.1, rd (winM3 c) (off (c.reg 1 + 128) e.2) 16)) })
    f1 f2 hA hB alA alB rfl hT
  dsimp only at q
  rw [f0] at q
  exact q

end Verif.Switch
