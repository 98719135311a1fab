import Verif.Switch.SysVProps
import Verif.Switch.I386Props
import Verif.Switch.Win64Props
import Verif.Switch.A64Props

/-!
# C162, C163: the first switch to a task

`task_derive` (`src/asm.c`) prepares the memory of a task so that a switch to
it starts its function.
-/

namespace Verif.Switch

/-- The end of the stack (`src/asm.c` lines 61-63, 181-183), for memory from
`h` on, `size` bytes. -/
def top (h size : Nat) : Nat := (h + size - 32) / 16 * 16

/-- `task_derive` (`src/asm.c` lines 60-67, 180-187): the address `done` of the
function that runs when the task's function returns, below it the address
`start` of the function that runs the task, and at the handle the address of
the latter. -/
def derive (w h size start done : Nat) (m : Mem) : Mem :=
  wr (wr (wr m (top h size - w) w done) (top h size - 2 * w) w start) h w (top h size - 2 * w)

/-- The same on 64 bit Windows (`src/asm.c` lines 188-191), with the bounds of
the stack. -/
def deriveWin (h size start done : Nat) (m : Mem) : Mem :=
  wr (wr (derive 8 h size start done m) (h + 240) 8 (h + size)) (h + 248) 8 h

/-- The same on 64 bit ARM (`src/asm.c` lines 307-314): stack pointer, return
address, frame pointer. -/
def deriveA64 (h size start : Nat) (m : Mem) : Mem :=
  wr (wr (wr m h 8 ((h + size) / 16 * 16)) (h + 8) 8 start) (h + 96) 8 ((h + size) / 16 * 16)

/-- The size of the memory of a task (`create_task`, `src/events.c` lines
1680-1699): `heap` bytes asked for, `handle` the size of the handle, `result`
that of the structure for results.  The addition for threads is not made on
Windows (take `thread` false); that of `MINSIGSTKSZ` on macOS (lines 1683-1686)
is left out: it makes the memory larger. -/
def taskSize (heap handle result : Nat) (main thread : Bool) : Nat :=
  let n := if heap < 8192 then 8192 else heap
  let n := if main then n * 6 else n
  let n := if thread ∧ n ≤ 18 * 1024 then 18 * 1024 + n else n
  (n + handle + result + 15) / 16 * 16

/-- By the rules for x86 processors, a function is entered such that the stack
above the return address is aligned to 16 bytes. -/
def EntryAligned (w : Nat) (c : Cpu) : Prop := (c.reg 4 + w) % 16 = 0

/-- `ret` -/
def ret (w : Nat) (c : Cpu) : Cpu :=
  { c with ip := rd c.mem (c.reg 4) w, reg := set c.reg 4 (c.reg 4 + w) }

theorem top_le {h size : Nat} (hs : 32 ≤ size) : top h size + 32 ≤ h + size := by
  unfold top
  omega

theorem le_top {h size : Nat} : h + size ≤ top h size + 47 := by
  unfold top
  omega

theorem top_mod (h size : Nat) : top h size % 16 = 0 := by
  unfold top
  omega

theorem derive_handle {w h size start done : Nat} {m : Mem} (hs : 128 ≤ size)
    (hb : h + size ≤ 256 ^ w) :
    rd (derive w h size start done m) h w = top h size - 2 * w := by
  have := top_le (h := h) (size := size) (by omega)
  rw [derive, rd_wr_same]
  exact Nat.mod_eq_of_lt (by omega)

theorem derive_start {w h size start done : Nat} {m : Mem} (hw : w ≤ 8) (hs : 128 ≤ size)
    (hst : start < 256 ^ w) :
    rd (derive w h size start done m) (top h size - 2 * w) w = start := by
  have := le_top (h := h) (size := size)
  rw [derive, rd_wr_apart (by unfold Apart; omega), rd_wr_same]
  exact Nat.mod_eq_of_lt hst

theorem derive_done {w h size start done : Nat} {m : Mem} (hw : w ≤ 8) (hs : 128 ≤ size)
    (hd : done < 256 ^ w) : rd (derive w h size start done m) (top h size - w) w = done := by
  have := le_top (h := h) (size := size)
  rw [derive, rd_wr_apart (by unfold Apart; omega), rd_wr_apart (by unfold Apart; omega), rd_wr_same]
  exact Nat.mod_eq_of_lt hd

/-- What is known of a task that has not run: its memory is apart from that of
the registers of the task that switches to it, and what `task_derive` wrote is
still there. -/
structure Fresh (w h size start done save n : Nat) (m m' : Mem) : Prop where
  large : 128 ≤ size
  fits : h + size ≤ 256 ^ w
  startFits : start < 256 ^ w
  doneFits : done < 256 ^ w
  apart : Apart save n h size
  same : Same [(h, w), (top h size - 2 * w, 2 * w)] m' (derive w h size start done m)

theorem Fresh.reads {w h size start done save n : Nat} {m m' : Mem}
    (f : Fresh w h size start done save n m m') (hw' : w ≤ 8) :
    rd m' h w = top h size - 2 * w ∧ rd m' (top h size - 2 * w) w = start ∧
      rd m' (top h size - w) w = done := by
  have := le_top (h := h) (size := size)
  have hs := f.large
  refine ⟨?_, ?_, ?_⟩
  · rw [rd_same f.same List.mem_cons_self (Nat.le_refl _) (by omega), derive_handle f.large f.fits]
  · rw [rd_same f.same (List.mem_cons_of_mem _ List.mem_cons_self) (Nat.le_refl _) (by omega),
      derive_start hw' f.large f.startFits]
  · rw [rd_same f.same (List.mem_cons_of_mem _ List.mem_cons_self) (by omega) (by omega),
      derive_done hw' f.large f.doneFits]

/-- How a task starts: at its function, with the stack aligned as for any call,
the return address being that of `task_done`, the whole stack and 32 bytes
above the return address (which Windows reserves for the callee) within the
memory of the task. -/
structure Started (w h size start done : Nat) (c : Cpu) : Prop where
  ip : c.ip = start
  ret : rd c.mem (c.reg 4) w = done
  aligned : EntryAligned w c
  upper : c.reg 4 + w + 32 ≤ h + size
  lower : h + size ≤ c.reg 4 + w + 47

/-- **C162.**  The first switch to a task starts its function (64 bit System
V). -/
theorem first_switch_sysv {c c' : Cpu} (ho : SysvOk c) {size start done : Nat} {m : Mem}
    (hf : Fresh 8 (c.reg 7) size start done (c.reg 6) 56 m c.mem)
    (hc : runCode true sysvCode c = some c') : Started 8 (c.reg 7) size start done c' := by
  obtain ⟨r1, r2, r3⟩ := hf.reads (by omega)
  have hs := hf.large
  have hb := hf.fits
  have t1 := top_le (h := c.reg 7) (size := size) (by omega)
  have t2 := le_top (h := c.reg 7) (size := size)
  have t3 := top_mod (c.reg 7) size
  have ha := hf.apart
  unfold Apart at ha
  rw [sysv_run ho.load ho.save] at hc
  have q := fun x hx => switch_writes_registers_only_sysv (x := x) ho (sysv_run ho.load ho.save) hx
  have m0 : rd (wr c.mem (c.reg 6) 8 (c.reg 4)) (c.reg 7) 8 = top (c.reg 7) size - 2 * 8 := by
    rw [rd_wr_apart (by unfold Apart; omega), r1]
  have m1 : rd (wr c.mem (c.reg 6) 8 (c.reg 4)) (top (c.reg 7) size - 2 * 8) 8 = start := by
    rw [rd_wr_apart (by unfold Apart; omega), r2]
  have m2 : rd c'.mem (top (c.reg 7) size - 8) 8 = done := by
    rw [← r3]
    obtain rfl := Option.some.inj hc
    exact rd_congr fun x h1 h2 => q x (by omega)
  replace hc := Option.some.inj hc
  rw [m0, m1] at hc
  have hsp : c'.reg 4 = top (c.reg 7) size - 8 := by
    rw [← hc]
    change setAll _ _ 4 = _
    rw [setAll_out (by simp [sysvSlots]), set, if_neg (by decide), set, if_pos rfl,
      Nat.mod_eq_of_lt (by omega)]
    omega
  refine ⟨by rw [← hc], by rw [hsp, m2], ?_, by omega, by omega⟩
  unfold EntryAligned
  rw [hsp]
  omega

/-- **C162.**  The first switch to a task starts its function (32 bit). -/
theorem first_switch_i386 {c c' : Cpu} (ho : I386Ok c) {size start done : Nat} {m : Mem}
    (hf : Fresh 4 (c.reg 1) size start done (c.reg 2) 20 m c.mem)
    (hc : runCode false i386Code c = some c') : Started 4 (c.reg 1) size start done c' := by
  obtain ⟨r1, r2, r3⟩ := hf.reads (by omega)
  have hs := hf.large
  have hb := hf.fits
  have t1 := top_le (h := c.reg 1) (size := size) (by omega)
  have t2 := le_top (h := c.reg 1) (size := size)
  have t3 := top_mod (c.reg 1) size
  have ha := hf.apart
  unfold Apart at ha
  rw [i386_run ho.load ho.save] at hc
  have q := fun x hx => switch_writes_registers_only_i386 (x := x) ho (i386_run ho.load ho.save) hx
  have m0 : rd (wr c.mem (c.reg 2) 4 (c.reg 4)) (c.reg 1) 4 = top (c.reg 1) size - 2 * 4 := by
    rw [rd_wr_apart (by unfold Apart; omega), r1]
  have m1 : rd (wr c.mem (c.reg 2) 4 (c.reg 4)) (top (c.reg 1) size - 2 * 4) 4 = start := by
    rw [rd_wr_apart (by unfold Apart; omega), r2]
  have m2 : rd c'.mem (top (c.reg 1) size - 4) 4 = done := by
    rw [← r3]
    obtain rfl := Option.some.inj hc
    exact rd_congr fun x h1 h2 => q x (by omega)
  replace hc := Option.some.inj hc
  rw [m0, m1] at hc
  have hsp : c'.reg 4 = top (c.reg 1) size - 4 := by
    rw [← hc]
    change setAll _ _ 4 = _
    rw [setAll_out (by simp [i386Slots]), set, if_neg (by decide), set, if_pos rfl,
      Nat.mod_eq_of_lt (by omega)]
    omega
  refine ⟨by rw [← hc], by rw [hsp, m2], ?_, by omega, by omega⟩
  unfold EntryAligned
  rw [hsp]
  omega

/-- What is known of a task that has not run, on 64 bit Windows. -/
structure FreshWin (h size start done save : Nat) (m m' : Mem) : Prop where
  large : 512 ≤ size
  fits : h + size < 256 ^ 8
  startFits : start < 256 ^ 8
  doneFits : done < 256 ^ 8
  apart : Apart save 256 h size
  same : Same [(h, 256), (top h size - 2 * 8, 2 * 8)] m' (deriveWin h size start done m)

theorem FreshWin.reads {h size start done save : Nat} {m m' : Mem}
    (f : FreshWin h size start done save m m') :
    rd m' h 8 = top h size - 2 * 8 ∧ rd m' (top h size - 2 * 8) 8 = start ∧
      rd m' (top h size - 8) 8 = done ∧ rd m' (h + 240) 8 = h + size ∧ rd m' (h + 248) 8 = h := by
  have := le_top (h := h) (size := size)
  have hs := f.large
  have hf := f.fits
  refine ⟨?_, ?_, ?_, ?_, ?_⟩
  · rw [rd_same f.same List.mem_cons_self (Nat.le_refl _) (by omega), deriveWin,
      rd_wr_apart (by unfold Apart; omega), rd_wr_apart (by unfold Apart; omega),
      derive_handle (by omega) (by omega)]
  · rw [rd_same f.same (List.mem_cons_of_mem _ List.mem_cons_self) (Nat.le_refl _) (by omega), deriveWin,
      rd_wr_apart (by unfold Apart; omega), rd_wr_apart (by unfold Apart; omega),
      derive_start (by omega) (by omega) f.startFits]
  · rw [rd_same f.same (List.mem_cons_of_mem _ List.mem_cons_self) (by omega) (by omega), deriveWin,
      rd_wr_apart (by unfold Apart; omega), rd_wr_apart (by unfold Apart; omega),
      derive_done (by omega) (by omega) f.doneFits]
  · rw [rd_same f.same List.mem_cons_self (by omega) (by omega), deriveWin,
      rd_wr_apart (by unfold Apart; omega), rd_wr_same]
    exact Nat.mod_eq_of_lt hf
  · rw [rd_same f.same List.mem_cons_self (by omega) (by omega), deriveWin, rd_wr_same]
    exact Nat.mod_eq_of_lt (by omega)

theorem rd_add (m : Mem) (a n k : Nat) : rd m a (n + k) = rd m a n + 256 ^ n * rd m (a + n) k := by
  induction n generalizing a with
  | zero => simp [rd]
  | succ n ih =>
    rw [Nat.add_right_comm, rd, ih, rd, Nat.pow_succ, show a + 1 + n = a + (n + 1) by omega,
      Nat.mul_add, ← Nat.mul_assoc, Nat.mul_comm 256 (256 ^ n)]
    omega

/-- **C162.**  The first switch to a task starts its function (64 bit Windows),
and the bounds of the stack in the description of the thread are then those of
the memory of the task. -/
theorem first_switch_win64 {c c' : Cpu} (ho : WinOk c) {size start done : Nat} {m : Mem}
    (hf : FreshWin (c.reg 1) size start done (c.reg 2) m c.mem)
    (hteb : Apart (c.gs + 8) 16 (c.reg 1) size)
    (hc : runCode true win64Code c = some c') : Started 8 (c.reg 1) size start done c' ∧
      rd c'.mem (c.gs + 8) 8 = c.reg 1 + size ∧ rd c'.mem (c.gs + 16) 8 = c.reg 1 := by
  obtain ⟨r1, r2, r3, r4, r5⟩ := hf.reads
  have hs := hf.large
  have hb := hf.fits
  have t1 := top_le (h := c.reg 1) (size := size) (by omega)
  have t2 := le_top (h := c.reg 1) (size := size)
  have t3 := top_mod (c.reg 1) size
  have ha := hf.apart
  unfold Apart at ha hteb
  have hc' : winSwap c = some c' := by
    unfold winSwap
    exact hc
  have q := fun x h1 h2 => win_frame (x := x) ho hc' h1 h2
  have m0 : rd (winM1 c) (c.reg 1) 8 = top (c.reg 1) size - 2 * 8 := by
    rw [winM1_apart (by unfold Apart; omega), r1]
  have m1 : rd (winM1 c) (top (c.reg 1) size - 2 * 8) 8 = start := by
    rw [winM1_apart (by unfold Apart; omega), r2]
  have m2 : rd c'.mem (top (c.reg 1) size - 8) 8 = done := by
    rw [← r3]
    exact rd_congr fun x h1 h2 => q x (by omega) (by omega)
  rw [win_after ho] at hc'
  obtain rfl := Option.some.inj hc'
  have hsp : (winAfter c).reg 4 = top (c.reg 1) size - 8 := by
    change winReg c 4 = _
    rw [winReg, set, if_neg (by decide), winReg2, setAll_out (by simp [winSlots]), winReg1, m0]
    simp only [set]
    change (top (c.reg 1) size - 2 * 8 + 8) % 256 ^ 8 = _
    rw [Nat.mod_eq_of_lt (by omega)]
    omega
  have b16 : rd (winAfter c).mem (c.gs + 8) 16 = rd c.mem (c.reg 1 + 240) 16 := by
    change rd (wr (winM4 c) (winTeb c + 8) 16 _) (c.gs + 8) 16 = _
    rw [winTeb_eq ho, rd_wr_same, winM4_apart (by unfold Apart; omega)]
    exact Nat.mod_eq_of_lt (rd_lt _ _ _)
  rw [rd_add _ _ 8 8, rd_add _ _ 8 8, r4, show c.reg 1 + 240 + 8 = c.reg 1 + 248 by omega, r5,
    show c.gs + 8 + 8 = c.gs + 16 by omega] at b16
  have l1 := rd_lt (winAfter c).mem (c.gs + 8) 8
  refine ⟨⟨?_, by rw [hsp, m2], ?_, by omega, by omega⟩, by omega, by omega⟩
  · change rd (winM1 c) (rd (winM1 c) (c.reg 1) 8) 8 = _
    rw [m0, m1]
  · unfold EntryAligned
    rw [hsp]
    omega

/-- **C162.**  The first switch to a task starts its function (64 bit ARM): the
stack pointer is divisible by 16, as it has to be, within the memory of the
task, and the frame pointer is the same. -/
theorem first_switch_a64 {c c' : A64.Cpu} (ho : A64.Ok 176 c) {size start : Nat} {m : Mem}
    (hb : c.x 0 + size < 2 ^ 64) (hst : start < 2 ^ 64)
    (hsame : Same [(c.x 0, 176)] c.mem (deriveA64 (c.x 0) size start m))
    (hc : A64.runCode (A64.swapHead ++ A64.swapEnd) c = some c') :
    c'.pc = start ∧ c'.sp % 16 = 0 ∧ c'.sp ≤ c.x 0 + size ∧ c.x 0 + size ≤ c'.sp + 15 ∧
      c'.x 29 = c'.sp := by
  rw [A64.swap_after ho] at hc
  obtain rfl := Option.some.inj hc
  have e0 : (A64.head c).sp = (c.x 0 + size) / 16 * 16 := by
    change rd c.mem (c.x 0) 8 = _
    rw [rd_same hsame List.mem_cons_self (Nat.le_refl _) (by omega), deriveA64,
      rd_wr_apart (by unfold Apart; omega), rd_wr_apart (by unfold Apart; omega), rd_wr_same]
    exact Nat.mod_eq_of_lt (by omega)
  have e1 : (A64.head c).x 30 = start := by
    rw [A64.loaded (v := rd c.mem (c.x 0 + 8) 8) (by simp [A64.allLoads]),
      rd_same hsame List.mem_cons_self (by omega) (by omega), deriveA64,
      rd_wr_apart (by unfold Apart; omega), rd_wr_same]
    exact Nat.mod_eq_of_lt hst
  have e2 : (A64.head c).x 29 = (c.x 0 + size) / 16 * 16 := by
    rw [A64.loaded (v := rd c.mem (c.x 0 + 96) 8) (by simp [A64.allLoads]),
      rd_same hsame List.mem_cons_self (by omega) (by omega), deriveA64, rd_wr_same]
    exact Nat.mod_eq_of_lt (by omega)
  refine ⟨e1, ?_, ?_, ?_, ?_⟩
  · change (A64.head c).sp % 16 = 0
    rw [e0]
    omega
  · change (A64.head c).sp ≤ _
    rw [e0]
    omega
  · change _ ≤ (A64.head c).sp + 15
    rw [e0]
    omega
  · change (A64.head c).x 29 = (A64.head c).sp
    rw [e0, e2]

/-- **C162.**  The stack of a task made by `create_task` with `heap` bytes has,
below the return address, at least as many bytes less 64 - and what is asked
for is never less than 8 KiB - above the handle of the task. -/
theorem stack_room {w h heap handle result start done : Nat} {main thread : Bool} {c : Cpu}
    (hw : w ≤ 8) (hs : Started w h (taskSize heap handle result main thread) start done c) :
    h + handle + max heap 8192 ≤ c.reg 4 + 64 := by
  have := hs.lower
  unfold taskSize at this
  dsimp only at this
  have big : max heap 8192 ≤ if heap < 8192 then 8192 else heap := by
    split <;> omega
  revert this
  generalize (if heap < 8192 then 8192 else heap) = n at *
  intro this
  cases main <;> cases thread <;> simp at this <;> (try split at this) <;> omega

/-- **C163.**  When the function of the task returns, `task_done` runs, but the
stack is not aligned as for a call: `EntryAligned` is false, so `task_done` and
what it calls (`active_task`, `task_scheduler_switch`) run with a stack that by
the rules they need not cope with. -/
theorem task_done_misaligned {w h size start done : Nat} {c c' : Cpu} (hw : w = 4 ∨ w = 8)
    (hs : Started w h size start done c) (hsp : c'.reg 4 = c.reg 4)
    (hm : rd c'.mem (c.reg 4) w = rd c.mem (c.reg 4) w) :
    (ret w c').ip = done ∧ ¬ EntryAligned w (ret w c') := by
  have ha := hs.aligned
  refine ⟨?_, ?_⟩
  · rw [← hs.ret, ← hm, ← hsp]
    rfl
  · unfold EntryAligned at *
    have : (ret w c').reg 4 = c.reg 4 + w := by
      rw [← hsp]
      simp [ret, set]
    rw [this]
    rcases hw with rfl | rfl <;> omega

/-- **C163, what does hold.**  `task_done` runs, with the stack pointer divisible
by 16 and 32 bytes of the memory of the task above it. -/
theorem task_done_partial {w h size start done : Nat} {c c' : Cpu}
    (hs : Started w h size start done c) (hsp : c'.reg 4 = c.reg 4)
    (hm : rd c'.mem (c.reg 4) w = rd c.mem (c.reg 4) w) :
    (ret w c').ip = done ∧ (ret w c').reg 4 % 16 = 0 ∧ (ret w c').reg 4 + 32 ≤ h + size := by
  have ha := hs.aligned
  have hu := hs.upper
  have : (ret w c').reg 4 = c.reg 4 + w := by
    rw [← hsp]
    simp [ret, set]
  refine ⟨?_, ?_, ?_⟩
  · rw [← hs.ret, ← hm, ← hsp]
    rfl
  · rw [this]
    exact ha
  · rw [this]
    exact hu

example : taskSize 0 400 40 false false = 8640 := by decide
example : taskSize 8192 400 40 false true = 27072 := by decide
example : taskSize 65536 400 40 true false = 393664 := by decide

/-- The hypotheses of `first_switch_sysv`, `stack_room`, `task_done_misaligned`
and `task_done_partial` are met. -/
example : ∃ c', runCode true sysvCode (twoCpu 32768 8192 8 0 (derive 8 32768 8640 0x1000 0x2000
    fun _ => 0)) = some c' ∧ Started 8 32768 8640 0x1000 0x2000 c' ∧
    32768 + 400 + 8192 ≤ c'.reg 4 + 64 ∧ (ret 8 c').ip = 0x2000 ∧ ¬ EntryAligned 8 (ret 8 c') := by
  have h : SysvOk (twoCpu 32768 8192 8 0 (derive 8 32768 8640 0x1000 0x2000 fun _ => 0)) := by
    constructor
    · intro r
      simp only [twoCpu]
      repeat' split
      all_goals omega
    all_goals simp [twoCpu]
  obtain ⟨c', hc⟩ := sysv_swap_total h
  have hs : Started 8 32768 8640 0x1000 0x2000 c' := first_switch_sysv h (m := fun _ => 0)
    ⟨by decide, by simp [twoCpu], by decide, by decide, by simp [twoCpu, Apart], fun _ _ => rfl⟩ hc
  exact ⟨c', hc, hs, stack_room (heap := 0) (handle := 400) (result := 40) (main := false)
    (thread := false) (by decide) hs, task_done_misaligned (.inr rfl) hs rfl rfl⟩

end Verif.Switch
