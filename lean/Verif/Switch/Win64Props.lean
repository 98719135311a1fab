import Verif.Switch.Win64
import Verif.Switch.Returned

/-!
# C159: switching between tasks on 64 bit Windows
-/

namespace Verif.Switch

/-- The registers a function has to preserve by the rules of 64 bit Windows:
`rbx`, `rbp`, `rsi`, `rdi`, `r12` to `r15` (besides `rsp`). -/
def winKept : List Nat := [3, 5, 6, 7, 12, 13, 14, 15]

/-- A call has returned by the rules of 64 bit Windows: besides `Returned`,
the vector registers 6 to 15 are as before, and so are the bounds of the stack
in the description of the thread (at `gs:[8]`, `gs:[16]`). -/
structure WinReturned (s t : Cpu) : Prop where
  basic : Returned 8 winKept s t
  xmm : ∀ x, 6 ≤ x → x ≤ 15 → t.xmm x = s.xmm x
  bounds : rd t.mem (t.gs + 8) 16 = rd s.mem (s.gs + 8) 16

/-- Values fit into registers, nothing reaches past the end of the address
space, the handles are divisible by 16, and `gs:[0x30]` holds the address of
the description of the thread, which is not among the registers to be saved. -/
structure WinOk (c : Cpu) : Prop where
  word : ∀ r, c.reg r < 2 ^ 64
  xword : ∀ x, c.xmm x < 2 ^ 128
  load : c.reg 1 + 256 ≤ 2 ^ 64
  save : c.reg 2 + 256 ≤ 2 ^ 64
  stack : c.reg 4 + 8 < 2 ^ 64
  alignLoad : c.reg 1 % 16 = 0
  alignSave : c.reg 2 % 16 = 0
  selfp : rd c.mem (c.gs + 0x30) 8 = c.gs
  teb : c.gs + 0x38 ≤ 2 ^ 64
  apart : Apart (c.reg 2) 256 c.gs 0x38

/-- The function, executed. -/
@[irreducible] def winSwap (c : Cpu) : Option Cpu := runCode true win64Code c

/-- 64 bit Windows: `coro_swap(rcx, rdx)`, `src/asm.c` lines 73-128.  The
handles point to 256 bytes for registers (`src/events_internal.h` lines
332-343), all of them used. -/
def win64 : Arch where
  C := Cpu
  mem := Cpu.mem
  swap := winSwap
  load c := c.reg 1
  save c := c.reg 2
  size := 256
  ret c := [(c.reg 4, 8)]
  extra c := [(c.gs + 8, 16)]
  ok := WinOk
  back := WinReturned

theorem winM1_apart {c : Cpu} {b k : Nat} (h : Apart (c.reg 2) 256 b k) :
    rd (winM1 c) b k = rd c.mem b k := by
  unfold Apart at h
  exact rd_wr_apart (by unfold Apart; omega)

theorem winM3_apart {c : Cpu} {b k : Nat} (h : Apart (c.reg 2) 256 b k) :
    rd (winM3 c) b k = rd c.mem b k := by
  rw [winM3, rd_wrAll_apart, rd_wrAll_apart, winM1_apart h]
  · unfold Apart at h
    simp [winSlots, Apart, off]
    omega
  · unfold Apart at h
    simp [winSlotsX, Apart, off]
    omega

theorem winM4_apart {c : Cpu} {b k : Nat} (h : Apart (c.reg 2) 256 b k) :
    rd (winM4 c) b k = rd c.mem b k := by
  rw [winM4, rd_wr_apart, winM3_apart h]
  unfold Apart at h ⊢
  omega

theorem winTeb_eq {c : Cpu} (h : WinOk c) : winTeb c = c.gs := by
  have ha := h.apart
  unfold Apart at ha
  rw [winTeb, winM3_apart (by unfold Apart; omega), h.selfp]

theorem win_after {c : Cpu} (h : WinOk c) : winSwap c = some (winAfter c) := by
  have ht := h.teb
  unfold winSwap
  exact win_run h.load h.save h.alignLoad h.alignSave (by rw [winTeb_eq h]; omega)

/-- The memory for registers is not touched after the bounds are saved. -/
theorem win_area {c : Cpu} (h : WinOk c) {b k : Nat} (h1 : c.reg 2 ≤ b)
    (h2 : b + k ≤ c.reg 2 + 256) : rd (winAfter c).mem b k = rd (winM4 c) b k := by
  have ha := h.apart
  unfold Apart at ha
  exact rd_wr_apart (by rw [winTeb_eq h]; unfold Apart; omega)

theorem win_saved_sp {c : Cpu} (h : WinOk c) : rd (winAfter c).mem (c.reg 2) 8 = c.reg 4 := by
  have hB := h.save
  rw [win_area h (Nat.le_refl _) (by omega), winM4, rd_wr_apart (by unfold Apart; omega), winM3,
    rd_wrAll_apart (by simp [winSlotsX, Apart, off]; omega),
    rd_wrAll_apart (by simp [winSlots, Apart, off]; omega), winM1, rd_wr_same]
  exact Nat.mod_eq_of_lt (h.word 4)

theorem win_saved {c : Cpu} (h : WinOk c) {r : Nat} {d : Int} (hd : (r, d) ∈ winSlots) :
    rd (winAfter c).mem (off (c.reg 2 + 128) d) 8 = c.reg r := by
  have b : -0x78 ≤ d ∧ d ≤ -0x40 := by
    simp [winSlots] at hd
    omega
  rw [win_area h (by unfold off; omega) (by unfold off; omega), winM4,
    rd_wr_apart (by unfold Apart off; omega), winM3,
    rd_wrAll_apart (by simp [winSlotsX, Apart, off]; omega),
    rd_wrAll_mem (by simp [winSlots, Apart, off]; omega) (List.mem_map.2 ⟨(r, d), hd, rfl⟩)]
  exact Nat.mod_eq_of_lt (h.word r)

theorem win_savedX {c : Cpu} (h : WinOk c) {x : Nat} {d : Int} (hd : (x, d) ∈ winSlotsX) :
    rd (winAfter c).mem (off (c.reg 2 + 128) d) 16 = c.xmm x := by
  have b : -0x30 ≤ d ∧ d ≤ 0x60 := by
    simp [winSlotsX] at hd
    omega
  rw [win_area h (by unfold off; omega) (by unfold off; omega), winM4,
    rd_wr_apart (by unfold Apart off; omega), winM3,
    rd_wrAll_mem (by simp [winSlotsX, Apart, off]; omega) (List.mem_map.2 ⟨(x, d), hd, rfl⟩)]
  exact Nat.mod_eq_of_lt (h.xword x)

theorem win_saved_bounds {c : Cpu} (h : WinOk c) :
    rd (winAfter c).mem (c.reg 2 + 240) 16 = rd c.mem (c.gs + 8) 16 := by
  have ha := h.apart
  unfold Apart at ha
  rw [win_area h (by omega) (by omega), winM4, rd_wr_same, winTeb_eq h,
    winM3_apart (by unfold Apart; omega)]
  exact Nat.mod_eq_of_lt (rd_lt _ _ _)

theorem win_frame {c c' : Cpu} (ho : WinOk c) (hc : winSwap c = some c') {x : Nat}
    (hx1 : ¬ (c.reg 2 ≤ x ∧ x < c.reg 2 + 256)) (hx2 : ¬ (c.gs + 8 ≤ x ∧ x < c.gs + 8 + 16)) :
    c'.mem x = c.mem x := by
  rw [win_after ho] at hc
  obtain rfl := Option.some.inj hc
  change wr (winM4 c) (winTeb c + 8) 16 _ x = c.mem x
  rw [wr_out (by rw [winTeb_eq ho]; omega), winM4, wr_out (by omega), winM3,
    wrAll_out (by simp [winSlotsX, off]; omega), wrAll_out (by simp [winSlots, off]; omega), winM1,
    wr_out (by omega)]

theorem win_resume {s t : Cpu} (hs : WinOk s) (ht : WinOk t) (hload : t.reg 1 = s.reg 2)
    (hsame : Same [(s.reg 2, 256), (s.reg 4, 8)] t.mem (winAfter s).mem)
    (r1 : Apart (s.reg 2) 256 (s.reg 4) 8) (v1 : Apart (t.reg 2) 256 (s.reg 2) 256)
    (v2 : Apart (t.reg 2) 256 (s.reg 4) 8) (x1 : Apart (s.gs + 8) 16 (s.reg 4) 8) :
    WinReturned s (winAfter t) := by
  have hst := hs.stack
  have k1 : rd (winAfter s).mem (s.reg 4) 8 = rd s.mem (s.reg 4) 8 := by
    change rd (wr (winM4 s) (winTeb s + 8) 16 _) _ _ = _
    rw [rd_wr_apart (by rw [winTeb_eq hs]; exact x1), winM4_apart r1]
  have area : ∀ {b k : Nat}, s.reg 2 ≤ b → b + k ≤ s.reg 2 + 256 →
      rd t.mem b k = rd (winAfter s).mem b k := fun h1 h2 =>
    rd_same hsame List.mem_cons_self h1 h2
  have m0 : rd (winM1 t) (t.reg 1) 8 = s.reg 4 := by
    unfold Apart at v1
    rw [hload, winM1_apart (by unfold Apart; omega), area (Nat.le_refl _) (by omega),
      win_saved_sp hs]
  have m1 : rd (winM1 t) (s.reg 4) 8 = rd s.mem (s.reg 4) 8 := by
    rw [winM1_apart v2, rd_same hsame (List.mem_cons_of_mem _ List.mem_cons_self) (Nat.le_refl _)
      (Nat.le_refl _), k1]
  refine ⟨⟨?_, ?_, ?_⟩, ?_, ?_⟩
  · change rd (winM1 t) (rd (winM1 t) (t.reg 1) 8) 8 = _
    rw [m0, m1]
  · change winReg t 4 = _
    rw [winReg, set, if_neg (by decide), winReg2, setAll_out (by simp [winSlots]), winReg1, m0]
    simp only [set]
    exact Nat.mod_eq_of_lt hst
  · intro r hr
    have key : ∀ d : Int, (r, d) ∈ winSlots → winReg t r = s.reg r := by
      intro d hd
      have hr8 : r ≠ 8 := by
        simp [winSlots] at hd
        omega
      have b : -0x78 ≤ d ∧ d ≤ -0x40 := by
        simp [winSlots] at hd
        omega
      unfold Apart at v1
      rw [winReg, set, if_neg hr8, winReg2,
        setAll_mem (by simp [winSlots]) (List.mem_map.2 ⟨(r, d), hd, rfl⟩), hload,
        winM3_apart (by unfold Apart off; dsimp only; omega),
        area (by unfold off; dsimp only; omega) (by unfold off; dsimp only; omega),
        win_saved hs hd]
    simp only [winKept, List.mem_cons, List.not_mem_nil, or_false] at hr
    rcases hr with h | h | h | h | h | h | h | h <;> subst h
    · exact key (-0x60) (by decide)
    · exact key (-0x78) (by decide)
    · exact key (-0x70) (by decide)
    · exact key (-0x68) (by decide)
    · exact key (-0x58) (by decide)
    · exact key (-0x50) (by decide)
    · exact key (-0x48) (by decide)
    · exact key (-0x40) (by decide)
  · intro x h6 h15
    have key : ∀ d : Int, (x, d) ∈ winSlotsX → winXmm t x = s.xmm x := by
      intro d hd
      have b : -0x30 ≤ d ∧ d ≤ 0x60 := by
        simp [winSlotsX] at hd
        omega
      unfold Apart at v1
      rw [winXmm, set, if_neg (by omega), set, if_neg (by omega),
        setAll_mem (by simp [winSlotsX]) (List.mem_map.2 ⟨(x, d), hd, rfl⟩), hload,
        winM3_apart (by unfold Apart off; dsimp only; omega),
        area (by unfold off; dsimp only; omega) (by unfold off; dsimp only; omega),
        win_savedX hs hd]
    refine key ((x : Int) * 16 - 0x90) ?_
    have : x = 6 ∨ x = 7 ∨ x = 8 ∨ x = 9 ∨ x = 10 ∨ x = 11 ∨ x = 12 ∨ x = 13 ∨ x = 14 ∨ x = 15 := by
      omega
    rcases this with h | h | h | h | h | h | h | h | h | h <;> subst h <;> decide
  · change rd (wr (winM4 t) (winTeb t + 8) 16 _) (t.gs + 8) 16 = _
    unfold Apart at v1
    rw [winTeb_eq ht, rd_wr_same, hload, winM4_apart (by unfold Apart; omega),
      area (by omega) (by omega), win_saved_bounds hs]
    exact Nat.mod_eq_of_lt (rd_lt _ _ _)

theorem win_good : Good win64 where
  frame ho hc x hx := win_frame ho hc (fun q => hx ⟨_, List.mem_cons_self, q⟩)
    (fun q => hx ⟨_, List.mem_cons_of_mem _ List.mem_cons_self, q⟩)
  resume := by
    intro s s' t t' hs hss ht htt hload hsame hret hsave hx1 _
    have hss : winSwap s = some s' := hss
    have htt : winSwap t = some t' := htt
    rw [win_after hs] at hss
    rw [win_after ht] at htt
    obtain rfl := Option.some.inj hss
    obtain rfl := Option.some.inj htt
    exact win_resume hs ht hload hsame (hret (s.reg 4, 8) List.mem_cons_self)
      (hsave (s.reg 2, 256) List.mem_cons_self)
      (hsave (s.reg 4, 8) (List.mem_cons_of_mem _ List.mem_cons_self))
      (hx1 (s.reg 4, 8) List.mem_cons_self (s.gs + 8, 16) List.mem_cons_self)

/-- **C159.**  In every execution of any number of tasks on one thread: the
switch does not fault, and the task that is switched to goes on as if its own
call of `coro_swap` had returned, by the rules of 64 bit Windows.  This
includes the bounds of the stack that the system keeps for the thread. -/
theorem task_goes_on_win64 {ctx : Nat → Nat} {teb : List (Nat × Nat)} (hl : Layout win64 ctx teb)
    {c : Cpu} {k : Nat} {st : Thr win64} (hr : Reach win64 ctx teb ⟨c, k, fun _ => none⟩ st)
    {j : Nat} {s s' : Cpu} (hj : st.susp j = some (s, s'))
    (hcall : Call win64 ctx teb st.cpu st.cur j) :
    ∃ t, winSwap st.cpu = some t ∧ WinReturned s t := by
  have ho : WinOk st.cpu := hcall.ok
  have ht : winSwap st.cpu = some (winAfter st.cpu) := win_after ho
  have ht' : win64.swap st.cpu = some (winAfter st.cpu) := ht
  have q := @good_returns win64 ctx teb hl win_good c k st hr j s s' hj hcall _ ht'
  exact ⟨winAfter st.cpu, ht, q⟩

/-- **C159.**  A switch changes no memory but the 256 bytes at the handle of
the task that stops, and the bounds of the stack that the system keeps for the
thread. -/
theorem switch_writes_registers_only_win64 {c c' : Cpu} (h : WinOk c) (hc : winSwap c = some c')
    {x : Nat} (hx1 : x < c.reg 2 ∨ c.reg 2 + 256 ≤ x) (hx2 : x < c.gs + 8 ∨ c.gs + 24 ≤ x) :
    c'.mem x = c.mem x :=
  win_frame h hc (by omega) (by omega)

/-- The decoded instructions, in groups. -/
def winIns : List Ins :=
  .store 4 2 0 :: .load 4 1 0 :: .pop 0 :: .sub 1 (-128) :: .sub 2 (-128) ::
    (winSlots.map (fun e => .store e.1 2 e.2) ++
    (winSlotsX.map (fun e => .storeX true e.1 2 e.2) ++
    (winSlots.map (fun e => .load e.1 1 e.2) ++
    (winSlotsX.map (fun e => .loadX true e.1 1 e.2) ++
      [.loadGs 8 0x30, .loadX false 0 8 8, .storeX true 0 2 0x70, .loadX true 0 1 0x70,
        .storeX false 0 8 8, .jmp 0]))))

theorem win_list : decode true (win64Code.length + 1) win64Code = some winIns := by
  rw [win64_decodes]
  rfl

theorem winX_cons (f : Nat × Int → Ins) (rest : List Ins) :
    winSlotsX.map f ++ rest = f (6, -0x30) :: (winSlotsX.tail.map f ++ rest) := rfl

/-- **C159.**  A handle that is not divisible by 16 makes the processor fault,
for the task that stops as for the one that is to run. -/
theorem misaligned_handle_faults {c : Cpu} (hA : c.reg 1 + 256 ≤ 2 ^ 64)
    (hB : c.reg 2 + 256 ≤ 2 ^ 64) (hn : c.reg 2 % 16 ≠ 0 ∨ c.reg 1 % 16 ≠ 0) :
    winSwap c = none := by
  have bA : ∀ e ∈ winSlots, 0 ≤ ((c.reg 1 + 128 : Nat) : Int) + e.2 ∧
      ((c.reg 1 + 128 : Nat) : Int) + e.2 < (256 ^ 8 : Nat) := by
    simp [winSlots]; omega
  have bB : ∀ e ∈ winSlots, 0 ≤ ((c.reg 2 + 128 : Nat) : Int) + e.2 ∧
      ((c.reg 2 + 128 : Nat) : Int) + e.2 < (256 ^ 8 : Nat) := by
    simp [winSlots]; omega
  have bBX : ∀ e ∈ winSlotsX, 0 ≤ ((c.reg 2 + 128 : Nat) : Int) + e.2 ∧
      ((c.reg 2 + 128 : Nat) : Int) + e.2 < (256 ^ 8 : Nat) := by
    simp [winSlotsX]; omega
  have e1 : winReg1 c 1 = c.reg 1 + 128 := by simp [winReg1, set]
  have e2 : winReg1 c 2 = c.reg 2 + 128 := by simp [winReg1, set]
  have hl : winSwap c = runIns 8 c winIns := by
    unfold winSwap runCode
    simp only [win_list, if_true]
  rw [hl, winIns]
  rw [win_head hA hB, stores (a := c.reg 2 + 128) e2 _ _ bB]
  by_cases hB16 : c.reg 2 % 16 = 0
  · have aB : ∀ e ∈ winSlotsX, off (c.reg 2 + 128) e.2 % 16 = 0 := by
      simp [winSlotsX, off]; omega
    rw [storesX (a := c.reg 2 + 128) e2 _ _ bBX aB, loads (a := c.reg 1 + 128) e1 _ _ bA (by decide),
      winX_cons, runIns, exec, if_pos]
    refine ⟨rfl, ?_⟩
    rw [ea_off (a := c.reg 1 + 128) ((setAll_out (by simp [winSlots])).trans e1) (by omega)
      (by omega)]
    unfold off
    omega
  · rw [winX_cons, runIns, exec, if_pos]
    refine ⟨rfl, ?_⟩
    rw [ea_off (a := c.reg 2 + 128) e2 (by omega) (by omega)]
    unfold off
    omega

/-- Two tasks, handles at 4096 and 8192, stacks at 8 and 16, the description of
the thread at 1024. -/
def twoWin (load save sp : Nat) (m : Mem) : Cpu where
  reg r := if r = 1 then load else if r = 2 then save else if r = 4 then sp else r % 16
  xmm x := x % 16
  mem := m
  ip := 0
  gs := 1024
  mxcsr := 0
  x87 := 0

def ctxWin (i : Nat) : Nat := 4096 * (i + 1)

theorem twoWin_ok {k j sp : Nat} {m : Mem} (hk : k ≤ 1) (hj : j ≤ 1) (h3 : sp ≤ 16)
    (hm : rd m (1024 + 0x30) 8 = 1024) : WinOk (twoWin (ctxWin j) (ctxWin k) sp m) where
  word r := by
    simp only [twoWin, ctxWin]
    repeat' split
    all_goals omega
  xword x := by
    simp only [twoWin]
    omega
  load := by simp [twoWin, ctxWin]; omega
  save := by simp [twoWin, ctxWin]; omega
  stack := by simp [twoWin]; omega
  alignLoad := by simp [twoWin, ctxWin]; omega
  alignSave := by simp [twoWin, ctxWin]; omega
  selfp := hm
  teb := by simp [twoWin]
  apart := by
    simp only [twoWin, ctxWin, Apart, if_true]
    rw [if_neg (by decide)]
    omega

theorem twoWin_call {k j sp : Nat} {m : Mem} (hk : k ≤ 1) (hj : j ≤ 1) (hn : j ≠ k)
    (h3 : sp ≤ 16) (hm : rd m (1024 + 0x30) 8 = 1024) :
    Call win64 ctxWin [(1032, 16)] (twoWin (ctxWin j) (ctxWin k) sp m) k j where
  ok := twoWin_ok hk hj h3 hm
  other := hn
  load := rfl
  save := rfl
  extra := rfl
  ret e he := by
    change e ∈ [(sp, 8)] at he
    rw [List.mem_singleton] at he
    subst he
    refine ⟨fun i => ?_, fun f hf => ?_⟩
    · unfold Apart ctxWin
      dsimp only
      omega
    · rw [List.mem_singleton] at hf
      subst hf
      unfold Apart
      dsimp only
      omega

set_option maxRecDepth 4000 in
/-- The hypotheses of `task_goes_on_win64` are met by an execution: task 0
switches to task 1, which switches back. -/
example : ∃ c st s s', Layout win64 ctxWin [(1032, 16)] ∧
    Reach win64 ctxWin [(1032, 16)] ⟨c, 0, fun _ => none⟩ st ∧
    st.susp 0 = some (s, s') ∧ Call win64 ctxWin [(1032, 16)] st.cpu st.cur 0 := by
  have hm : rd (wr (fun _ => 0) (1024 + 0x30) 8 1024) (1024 + 0x30) 8 = 1024 := by
    rw [rd_wr_same]
  have h1 := twoWin_call (k := 0) (j := 1) (sp := 8) (by omega) (by omega) (by omega) (by omega) hm
  have hm' : rd (winAfter (twoWin (ctxWin 1) (ctxWin 0) 8
      (wr (fun _ => 0) (1024 + 0x30) 8 1024))).mem (1024 + 0x30) 8 = 1024 := by
    refine (rd_congr fun x hx1 hx2 => ?_).trans hm
    refine win_frame h1.ok (win_after h1.ok) ?_ ?_ <;> simp [twoWin, ctxWin] <;> omega
  have s1 := @Step.swap win64 ctxWin [(1032, 16)] ⟨_, 0, fun _ => none⟩ 1 _ h1 (win_after h1.ok)
  refine ⟨_, _, _, _, ⟨fun i j h => ?_, fun i f hf => ?_⟩, .tail (.tail (.refl _) s1)
    (.run (c := twoWin (ctxWin 0) (ctxWin 1) 16 _) (fun j s s' _ x _ => rfl)), rfl,
    twoWin_call (k := 1) (j := 0) (by omega) (by omega) (by omega) (by omega) hm'⟩
  · change Apart (ctxWin i) 256 (ctxWin j) 256
    unfold Apart ctxWin
    omega
  · rw [List.mem_singleton] at hf
    subst hf
    change Apart 1032 16 (ctxWin i) 256
    unfold Apart ctxWin
    omega

/-- A handle that is divisible by 8 only, as an allocator other than that of
the system may give it. -/
example : winSwap (twoWin 4096 8200 16 fun _ => 0) = none :=
  misaligned_handle_faults (by simp [twoWin]) (by simp [twoWin]) (by simp [twoWin])

end Verif.Switch
