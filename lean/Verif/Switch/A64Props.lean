import Verif.Switch.A64Run
import Verif.Switch.Returned

/-!
# C160: switching between tasks on 64 bit ARM machines
-/

namespace Verif.Switch.A64

open Verif.Switch

/-- A call made in `s` (at the first instruction of the callee, the return
address in register 30) has returned in `t` by the rules for 64 bit ARM:
execution is at the return address, the stack pointer, the registers 19 to 29
and the lower halves of the floating point registers 8 to 15 are as before. -/
structure Returned (s t : Cpu) : Prop where
  pc : t.pc = s.x 30
  sp : t.sp = s.sp
  regs : ∀ r, 19 ≤ r → r ≤ 29 → t.x r = s.x r
  fp : ∀ r, 8 ≤ r → r ≤ 15 → t.d r = s.d r

/-- Values fit into registers, and the memory for the registers of the two
tasks - `n` bytes each - is distinct and does not reach past the end of the
address space. -/
structure Ok (n : Nat) (c : Cpu) : Prop where
  word : ∀ r, c.x r < 2 ^ 64
  dword : ∀ r, c.d r < 2 ^ 64
  spword : c.sp < 2 ^ 64
  load : c.x 0 + n ≤ 2 ^ 64
  save : c.x 1 + n ≤ 2 ^ 64
  apart : Apart (c.x 1) n (c.x 0) n

/-- The state after the switch. -/
def after (c : Cpu) : Cpu := { head c with pc := (head c).x 30 }

theorem swap_after {c : Cpu} (h : Ok 176 c) : runCode (swapHead ++ swapEnd) c = some (after c) := by
  rw [runCode, decodes]
  dsimp only
  rw [head_run h.load h.save h.apart h.spword]
  rfl

/-- 64 bit ARM: `coro_swap(x0, x1)`, `src/asm.c` lines 239-272 without the part
for Windows.  The handles point to 176 bytes for registers
(`src/events_internal.h` lines 368-372). -/
def a64 : Arch where
  C := Cpu
  mem := Cpu.mem
  swap := runCode (swapHead ++ swapEnd)
  load c := c.x 0
  save c := c.x 1
  size := 176
  ret _ := []
  extra _ := []
  ok := Ok 176
  back := Returned

theorem head_mem_out {c : Cpu} {x : Nat} (hx : ¬ (c.x 1 ≤ x ∧ x < c.x 1 + 176)) :
    (head c).mem x = c.mem x := by
  refine wrAll_out fun e he => ?_
  have : c.x 1 ≤ e.1 ∧ e.1 + e.2.1 ≤ c.x 1 + 176 := by
    simp only [allSaves, List.mem_cons, List.mem_append] at he
    rcases he with rfl | rfl | he | rfl | he
    · dsimp only; omega
    · dsimp only; omega
    · exact saves_within pairs_fine e he
    · dsimp only; omega
    · exact saves_within dpairs_fine e he
  omega

theorem saves_apart (c : Cpu) :
    (allSaves c).Pairwise fun e f => Apart e.1 e.2.1 f.1 f.2.1 := by
  simp [allSaves, saves, pairs, dpairs, Apart]

/-- What the memory for registers holds after the switch. -/
theorem saved {c : Cpu} {o v : Nat} (h : (c.x 1 + o, 8, v) ∈ allSaves c) (hv : v < 2 ^ 64) :
    rd (head c).mem (c.x 1 + o) 8 = v := by
  change rd (wrAll c.mem (allSaves c)) _ _ = _
  rw [rd_wrAll_mem (saves_apart c) h]
  exact Nat.mod_eq_of_lt hv

/-- The general registers after the switch. -/
theorem loaded {c : Cpu} {r v : Nat} (h : (r, v) ∈ allLoads c) : (head c).x r = v :=
  setAll_mem (by simp [allLoads, loads, pairs]) h

theorem loadedd {c : Cpu} {r v : Nat} (h : (r, v) ∈ loads c.mem (c.x 0) dpairs) :
    (head c).d r = v :=
  setAll_mem (by simp [loads, dpairs]) h

/-- If the registers to be loaded are those that `s` saved, the registers after
the switch are those of `s`. -/
theorem head_back {s t : Cpu} (hw : ∀ r, s.x r < 2 ^ 64) (hd : ∀ r, s.d r < 2 ^ 64)
    (hsp : s.sp < 2 ^ 64) (hload : t.x 0 = s.x 1)
    (hsame : ∀ o, o + 8 ≤ 176 → rd t.mem (s.x 1 + o) 8 = rd (head s).mem (s.x 1 + o) 8) :
    (head t).x 30 = s.x 30 ∧ (head t).sp = s.sp ∧
      (∀ r, 19 ≤ r → r ≤ 29 → (head t).x r = s.x r) ∧
      (∀ r, 8 ≤ r → r ≤ 15 → (head t).d r = s.d r) := by
  have key : ∀ r o : Nat, o + 8 ≤ 176 → (r, rd t.mem (t.x 0 + o) 8) ∈ allLoads t →
      (s.x 1 + o, 8, s.x r) ∈ allSaves s → (head t).x r = s.x r := by
    intro r o ho h1 h2
    rw [loaded h1, hload, hsame o ho, saved h2 (hw r)]
  have keyd : ∀ r o : Nat, o + 8 ≤ 176 → (r, rd t.mem (t.x 0 + o) 8) ∈ loads t.mem (t.x 0) dpairs →
      (s.x 1 + o, 8, s.d r) ∈ allSaves s → (head t).d r = s.d r := by
    intro r o ho h1 h2
    rw [loadedd h1, hload, hsame o ho, saved h2 (hd r)]
  refine ⟨key 30 8 (by omega) (by simp [allLoads]) (by simp [allSaves]), ?_, ?_, ?_⟩
  · change rd t.mem (t.x 0) 8 = s.sp
    have := hsame 0 (by omega)
    rw [Nat.add_zero] at this
    rw [hload, this]
    exact saved (o := 0) (by simp [allSaves]) hsp
  · intro r h1 h2
    have : r = 19 ∨ r = 20 ∨ r = 21 ∨ r = 22 ∨ r = 23 ∨ r = 24 ∨ r = 25 ∨ r = 26 ∨ r = 27 ∨ r = 28 ∨
        r = 29 := by omega
    rcases this with h | h | h | h | h | h | h | h | h | h | h <;> subst h
    · exact key 19 16 (by omega) (by simp [allLoads, loads, pairs]) (by simp [allSaves, saves, pairs])
    · exact key 20 24 (by omega) (by simp [allLoads, loads, pairs]) (by simp [allSaves, saves, pairs])
    · exact key 21 32 (by omega) (by simp [allLoads, loads, pairs]) (by simp [allSaves, saves, pairs])
    · exact key 22 40 (by omega) (by simp [allLoads, loads, pairs]) (by simp [allSaves, saves, pairs])
    · exact key 23 48 (by omega) (by simp [allLoads, loads, pairs]) (by simp [allSaves, saves, pairs])
    · exact key 24 56 (by omega) (by simp [allLoads, loads, pairs]) (by simp [allSaves, saves, pairs])
    · exact key 25 64 (by omega) (by simp [allLoads, loads, pairs]) (by simp [allSaves, saves, pairs])
    · exact key 26 72 (by omega) (by simp [allLoads, loads, pairs]) (by simp [allSaves, saves, pairs])
    · exact key 27 80 (by omega) (by simp [allLoads, loads, pairs]) (by simp [allSaves, saves, pairs])
    · exact key 28 88 (by omega) (by simp [allLoads, loads, pairs]) (by simp [allSaves, saves, pairs])
    · exact key 29 96 (by omega) (by simp [allLoads, loads, pairs]) (by simp [allSaves, saves, pairs])
  · intro r h1 h2
    have : r = 8 ∨ r = 9 ∨ r = 10 ∨ r = 11 ∨ r = 12 ∨ r = 13 ∨ r = 14 ∨ r = 15 := by omega
    rcases this with h | h | h | h | h | h | h | h <;> subst h
    · exact keyd 8 112 (by omega) (by simp [loads, dpairs]) (by simp [allSaves, saves, dpairs])
    · exact keyd 9 120 (by omega) (by simp [loads, dpairs]) (by simp [allSaves, saves, dpairs])
    · exact keyd 10 128 (by omega) (by simp [loads, dpairs]) (by simp [allSaves, saves, dpairs])
    · exact keyd 11 136 (by omega) (by simp [loads, dpairs]) (by simp [allSaves, saves, dpairs])
    · exact keyd 12 144 (by omega) (by simp [loads, dpairs]) (by simp [allSaves, saves, dpairs])
    · exact keyd 13 152 (by omega) (by simp [loads, dpairs]) (by simp [allSaves, saves, dpairs])
    · exact keyd 14 160 (by omega) (by simp [loads, dpairs]) (by simp [allSaves, saves, dpairs])
    · exact keyd 15 168 (by omega) (by simp [loads, dpairs]) (by simp [allSaves, saves, dpairs])

theorem a64_frame {c c' : Cpu} (ho : Ok 176 c) (hc : runCode (swapHead ++ swapEnd) c = some c')
    {x : Nat} (hx : ¬ (c.x 1 ≤ x ∧ x < c.x 1 + 176)) : c'.mem x = c.mem x := by
  rw [swap_after ho] at hc
  obtain rfl := Option.some.inj hc
  exact head_mem_out hx

theorem a64_resume {s s' t t' : Cpu} (hs : Ok 176 s) (hss : runCode (swapHead ++ swapEnd) s = some s')
    (ht : Ok 176 t) (htt : runCode (swapHead ++ swapEnd) t = some t') (hload : t.x 0 = s.x 1)
    (hsame : Same [(s.x 1, 176)] t.mem s'.mem) : Returned s t' := by
  rw [swap_after hs] at hss
  rw [swap_after ht] at htt
  obtain rfl := Option.some.inj hss
  obtain rfl := Option.some.inj htt
  have q := head_back hs.word hs.dword hs.spword hload fun o ho =>
    rd_same hsame List.mem_cons_self (by omega) (by omega)
  exact ⟨q.1, q.2.1, q.2.2.1, q.2.2.2⟩

theorem a64_good : Good a64 where
  frame ho hc _ hx := a64_frame ho hc fun q => hx ⟨_, List.mem_cons_self, q⟩
  resume hs hss ht htt hload hsame _ _ _ _ := a64_resume hs hss ht htt hload hsame

/-- **C160.**  In every execution of any number of tasks on one thread: the
switch does not fault, and the task that is switched to goes on exactly as if
its own call of `coro_swap` had returned, by the rules for 64 bit ARM. -/
theorem task_goes_on_a64 {ctx : Nat → Nat} (hl : Layout a64 ctx []) {c : Cpu} {k : Nat}
    {st : Thr a64} (hr : Reach a64 ctx [] ⟨c, k, fun _ => none⟩ st) {j : Nat} {s s' : Cpu}
    (hj : st.susp j = some (s, s')) (hcall : Call a64 ctx [] st.cpu st.cur j) :
    ∃ t, runCode (swapHead ++ swapEnd) st.cpu = some t ∧ Returned s t := by
  have ht := swap_after hcall.ok
  exact ⟨_, ht, good_returns hl a64_good hr hj hcall ht⟩

/-- **C160.**  A switch changes no memory but the 176 bytes at the handle of
the task that stops. -/
theorem switch_writes_registers_only_a64 {c c' : Cpu} (h : Ok 176 c)
    (hc : runCode (swapHead ++ swapEnd) c = some c') {x : Nat}
    (hx : x < c.x 1 ∨ c.x 1 + 176 ≤ x) : c'.mem x = c.mem x :=
  a64_frame h hc (by omega)

/-- Two tasks, handles at 4096 and 8192. -/
def two (load save sp : Nat) (m : Mem) : Cpu where
  x r := if r = 0 then load else if r = 1 then save else if r = 18 then 1024 else r % 32
  sp := sp
  d r := r % 32
  mem := m
  pc := 0

def twoCtx (i : Nat) : Nat := 4096 * (i + 1)

theorem two_ok {n k j sp : Nat} {m : Mem} (hn : n ≤ 4096) (hk : k ≤ 1) (hj : j ≤ 1) (hne : j ≠ k)
    (h3 : sp ≤ 16) : Ok n (two (twoCtx j) (twoCtx k) sp m) where
  word r := by
    simp only [two, twoCtx]
    repeat' split
    all_goals omega
  dword r := by
    simp only [two]
    omega
  spword := by simp [two]; omega
  load := by simp [two, twoCtx]; omega
  save := by simp [two, twoCtx]; omega
  apart := by
    simp only [two, twoCtx, Apart, if_true]
    rw [if_neg (by decide)]
    omega

/-- The hypotheses of `task_goes_on_a64` are met by an execution: task 0
switches to task 1, which switches back. -/
example : ∃ c st s s', Layout a64 twoCtx [] ∧
    Reach a64 twoCtx [] ⟨c, 0, fun _ => none⟩ st ∧
    st.susp 0 = some (s, s') ∧ Call a64 twoCtx [] st.cpu st.cur 0 := by
  have h0 : Ok 176 (two (twoCtx 1) (twoCtx 0) 8 (fun x => x)) :=
    two_ok (by omega) (by omega) (by omega) (by omega) (by omega)
  have h1 : Call a64 twoCtx [] (two (twoCtx 1) (twoCtx 0) 8 (fun x => x)) 0 1 :=
    ⟨h0, by omega, rfl, rfl, rfl, fun e he => nomatch he⟩
  have h2 : Call a64 twoCtx [] (two (twoCtx 0) (twoCtx 1) 16
      (after (two (twoCtx 1) (twoCtx 0) 8 (fun x => x))).mem) 1 0 :=
    ⟨two_ok (by omega) (by omega) (by omega) (by omega) (by omega), by omega, rfl, rfl, rfl,
      fun e he => nomatch he⟩
  have s1 := @Step.swap a64 twoCtx [] ⟨two (twoCtx 1) (twoCtx 0) 8 (fun x => x), 0, fun _ => none⟩
    1 _ h1 (swap_after h0)
  refine ⟨_, _, _, _, ⟨fun i j h => ?_, fun _ f h => by simp at h⟩, .tail (.tail (.refl _) s1)
    (.run (c := two (twoCtx 0) (twoCtx 1) 16 (after (two (twoCtx 1) (twoCtx 0) 8 (fun x => x))).mem)
      (fun j s s' _ x _ => rfl)), rfl, h2⟩
  change Apart (twoCtx i) 176 (twoCtx j) 176
  unfold Apart twoCtx
  omega

/-! ## Windows -/

/-- Memory after the bounds of the stack are saved. -/
def midWin (c : Cpu) : Mem :=
  wr (wr (head c).mem (c.x 1 + 176) 8 (rd (head c).mem (c.x 18 + 8) 8)) (c.x 1 + 184) 8
    (rd (head c).mem (c.x 18 + 16) 8)

/-- The state after the switch, on Windows. -/
def afterWin (c : Cpu) : Cpu :=
  let b := rd (head c).mem (c.x 18 + 8) 8
  let b' := rd (head c).mem (c.x 18 + 16) 8
  let l := rd (midWin c) (c.x 0 + 176) 8
  let l' := rd (midWin c) (c.x 0 + 184) 8
  { head c with
    mem := wr (wr (midWin c) (c.x 18 + 8) 8 l) (c.x 18 + 16) 8 l'
    x := set (set (set (set (head c).x 16 b) 17 b') 16 l) 17 l'
    pc := (head c).x 30 }

/-- What is needed in addition: register 18 holds the address of the
description of the thread, apart from the registers to be saved. -/
structure OkWin (c : Cpu) : Prop where
  ok : Ok 192 c
  teb : c.x 18 + 24 ≤ 2 ^ 64
  tebApart : Apart (c.x 1) 192 (c.x 18 + 8) 16

theorem Ok.mono {c : Cpu} (h : Ok 192 c) : Ok 176 c where
  word := h.word
  dword := h.dword
  spword := h.spword
  load := by have := h.load; omega
  save := by have := h.save; omega
  apart := by have := h.apart; unfold Apart at this ⊢; omega

theorem head_x {c : Cpu} {r : Nat} (hr : r = 0 ∨ r = 1 ∨ r = 18) : (head c).x r = c.x r := by
  change setAll (set c.x 16 c.sp) (allLoads c) r = _
  rw [setAll_out, set, if_neg (by omega)]
  rcases hr with rfl | rfl | rfl <;> simp [allLoads, loads, pairs]

theorem swap_after_win {c : Cpu} (h : OkWin c) :
    runCode (swapHead ++ swapTib ++ swapEnd) c = some (afterWin c) := by
  have hl := h.ok.load
  have hs := h.ok.save
  have ht := h.teb
  have hk := h.ok.mono
  rw [runCode, decodes_win]
  dsimp only
  rw [head_run hk.load hk.save hk.apart hk.spword]
  have h0 : (head c).x 0 = c.x 0 := head_x (Or.inl rfl)
  have h1 : (head c).x 1 = c.x 1 := head_x (Or.inr (Or.inl rfl))
  have h18 : (head c).x 18 = c.x 18 := head_x (Or.inr (Or.inr rfl))
  simp only [insTib, List.cons_append, List.nil_append, runIns, exec, afterWin, midWin]
  simp only [addr, set, h0, h1, h18, if_true, Nat.reduceAdd, Nat.reduceEqDiff,
    if_false]
  rw [Nat.mod_eq_of_lt (show c.x 18 + 8 < 2 ^ 64 by omega),
    Nat.mod_eq_of_lt (show c.x 18 + 16 < 2 ^ 64 by omega),
    Nat.mod_eq_of_lt (show c.x 1 + 176 < 2 ^ 64 by omega),
    Nat.mod_eq_of_lt (show c.x 1 + 184 < 2 ^ 64 by omega),
    Nat.mod_eq_of_lt (show c.x 0 + 176 < 2 ^ 64 by omega),
    Nat.mod_eq_of_lt (show c.x 0 + 184 < 2 ^ 64 by omega)]

/-- A call has returned by the rules for Windows: besides `Returned`, the bounds
of the stack in the description of the thread are as before. -/
structure ReturnedWin (s t : Cpu) : Prop where
  basic : Returned s t
  base : rd t.mem (t.x 18 + 8) 8 = rd s.mem (s.x 18 + 8) 8
  limit : rd t.mem (t.x 18 + 16) 8 = rd s.mem (s.x 18 + 16) 8

/-- 64 bit ARM with Windows: `src/asm.c` lines 239-272. -/
def a64win : Arch where
  C := Cpu
  mem := Cpu.mem
  swap := runCode (swapHead ++ swapTib ++ swapEnd)
  load c := c.x 0
  save c := c.x 1
  size := 192
  ret _ := []
  extra c := [(c.x 18 + 8, 16)]
  ok := OkWin
  back := ReturnedWin

theorem head_rd {c : Cpu} {b k : Nat} (h : Apart (c.x 1) 176 b k) : rd (head c).mem b k = rd c.mem b k :=
  rd_congr fun _ h1 h2 => head_mem_out fun q => apart_not h ⟨h1, h2⟩ q

theorem win_bounds_saved {c : Cpu} (h : OkWin c) :
    rd (afterWin c).mem (c.x 1 + 176) 8 = rd c.mem (c.x 18 + 8) 8 ∧
      rd (afterWin c).mem (c.x 1 + 184) 8 = rd c.mem (c.x 18 + 16) 8 := by
  have ha := h.tebApart
  unfold Apart at ha
  simp only [afterWin]
  have e1 : rd (head c).mem (c.x 18 + 8) 8 = rd c.mem (c.x 18 + 8) 8 :=
    head_rd (by unfold Apart; omega)
  have e2 : rd (head c).mem (c.x 18 + 16) 8 = rd c.mem (c.x 18 + 16) 8 :=
    head_rd (by unfold Apart; omega)
  constructor
  · rw [rd_wr_apart (by unfold Apart; omega), rd_wr_apart (by unfold Apart; omega),
      midWin, rd_wr_apart (by unfold Apart; omega), rd_wr_same, e1]
    exact Nat.mod_eq_of_lt (rd_lt _ _ _)
  · rw [rd_wr_apart (by unfold Apart; omega), rd_wr_apart (by unfold Apart; omega), midWin,
      rd_wr_same, e2]
    exact Nat.mod_eq_of_lt (rd_lt _ _ _)

theorem win_head_kept {c : Cpu} (h : OkWin c) {o : Nat} (ho : o + 8 ≤ 176) :
    rd (afterWin c).mem (c.x 1 + o) 8 = rd (head c).mem (c.x 1 + o) 8 := by
  have ha := h.tebApart
  unfold Apart at ha
  simp only [afterWin]
  rw [rd_wr_apart (by unfold Apart; omega), rd_wr_apart (by unfold Apart; omega),
    midWin, rd_wr_apart (by unfold Apart; omega), rd_wr_apart (by unfold Apart; omega)]

theorem win_bounds_loaded {c : Cpu} (h : OkWin c) :
    rd (afterWin c).mem (c.x 18 + 8) 8 = rd c.mem (c.x 0 + 176) 8 ∧
      rd (afterWin c).mem (c.x 18 + 16) 8 = rd c.mem (c.x 0 + 184) 8 := by
  have ha := h.ok.apart
  unfold Apart at ha
  have e1 : rd (midWin c) (c.x 0 + 176) 8 = rd c.mem (c.x 0 + 176) 8 := by
    rw [midWin, rd_wr_apart (by unfold Apart; omega), rd_wr_apart (by unfold Apart; omega),
      head_rd (by unfold Apart; omega)]
  have e2 : rd (midWin c) (c.x 0 + 184) 8 = rd c.mem (c.x 0 + 184) 8 := by
    rw [midWin, rd_wr_apart (by unfold Apart; omega), rd_wr_apart (by unfold Apart; omega),
      head_rd (by unfold Apart; omega)]
  simp only [afterWin]
  rw [e1, e2]
  constructor
  · rw [rd_wr_apart (by unfold Apart; omega), rd_wr_same]
    exact Nat.mod_eq_of_lt (rd_lt _ _ _)
  · rw [rd_wr_same]
    exact Nat.mod_eq_of_lt (rd_lt _ _ _)

theorem win_frame {c : Cpu} {x : Nat} (h1 : ¬ (c.x 1 ≤ x ∧ x < c.x 1 + 192))
    (h2 : ¬ (c.x 18 + 8 ≤ x ∧ x < c.x 18 + 8 + 16)) : (afterWin c).mem x = c.mem x := by
  simp only [afterWin]
  rw [wr_out (by omega), wr_out (by omega), midWin, wr_out (by omega), wr_out (by omega),
    head_mem_out (by omega)]

theorem win_resume {s t : Cpu} (hs : OkWin s) (ht : OkWin t) (hload : t.x 0 = s.x 1)
    (hsame : Same [(s.x 1, 192)] t.mem (afterWin s).mem) : ReturnedWin s (afterWin t) := by
  have area : ∀ o, o + 8 ≤ 192 → rd t.mem (s.x 1 + o) 8 = rd (afterWin s).mem (s.x 1 + o) 8 :=
    fun o ho => rd_same hsame List.mem_cons_self (by omega) (by omega)
  have q := head_back hs.ok.word hs.ok.dword hs.ok.spword hload fun o ho => by
    rw [area o (by omega), win_head_kept hs ho]
  have h18 : (head t).x 18 = t.x 18 := head_x (Or.inr (Or.inr rfl))
  have x18 : (afterWin t).x 18 = t.x 18 := by
    simp [afterWin, set, h18]
  have b := win_bounds_loaded ht
  have v := win_bounds_saved hs
  refine ⟨⟨q.1, q.2.1, fun r h1 h2 => ?_, q.2.2.2⟩, ?_, ?_⟩
  · rw [← q.2.2.1 r h1 h2]
    simp only [afterWin, set]
    rw [if_neg (by omega), if_neg (by omega), if_neg (by omega), if_neg (by omega)]
  · rw [x18, b.1, hload, area 176 (by omega), v.1]
  · rw [x18, b.2, hload, area 184 (by omega), v.2]

theorem a64win_good : Good a64win where
  frame := by
    intro c c' ho hc x hx
    have hc : runCode (swapHead ++ swapTib ++ swapEnd) c = some c' := hc
    rw [swap_after_win ho] at hc
    obtain rfl := Option.some.inj hc
    exact win_frame (fun q => hx ⟨_, List.mem_cons_self, q⟩)
      (fun q => hx ⟨_, List.mem_cons_of_mem _ List.mem_cons_self, q⟩)
  resume := by
    intro s s' t t' hs hss ht htt hload hsame _ _ _ _
    have hss : runCode (swapHead ++ swapTib ++ swapEnd) s = some s' := hss
    have htt : runCode (swapHead ++ swapTib ++ swapEnd) t = some t' := htt
    rw [swap_after_win hs] at hss
    rw [swap_after_win ht] at htt
    obtain rfl := Option.some.inj hss
    obtain rfl := Option.some.inj htt
    exact win_resume hs ht hload hsame

/-- **C161, what does hold.**  If the 192 bytes at each handle were for the
registers, and nothing else were kept in them, tasks on Windows would go on as
if their call of `coro_swap` had returned. -/
theorem task_goes_on_a64_windows_partial {ctx : Nat → Nat} {teb : List (Nat × Nat)}
    (hl : Layout a64win ctx teb) {c : Cpu} {k : Nat} {st : Thr a64win}
    (hr : Reach a64win ctx teb ⟨c, k, fun _ => none⟩ st) {j : Nat} {s s' : Cpu}
    (hj : st.susp j = some (s, s')) (hcall : Call a64win ctx teb st.cpu st.cur j) :
    ∃ t, runCode (swapHead ++ swapTib ++ swapEnd) st.cpu = some t ∧ ReturnedWin s t := by
  have ht := swap_after_win hcall.ok
  exact ⟨_, ht, good_returns hl a64win_good hr hj hcall ht⟩

/-- **C161.**  But only 176 bytes are for the registers; behind them a handle
has the base of the stack (offset 176) and the number by which it is recognised
as a task (offset 184), `src/events_internal.h` lines 412-424.  Every switch
replaces both by the bounds of the stack of the thread. -/
theorem windows_overwrites_task {c c' : Cpu} (h : OkWin c)
    (hc : runCode (swapHead ++ swapTib ++ swapEnd) c = some c') :
    rd c'.mem (c.x 1 + 176) 8 = rd c.mem (c.x 18 + 8) 8 ∧
      rd c'.mem (c.x 1 + 184) 8 = rd c.mem (c.x 18 + 16) 8 := by
  rw [swap_after_win h] at hc
  obtain rfl := Option.some.inj hc
  exact win_bounds_saved h

/-- **C161.**  So a task that was one (the number at offset 184 is `magic`) is
none any more once it has switched away, unless the limit of the stack happens
to be that number. -/
theorem windows_task_unrecognised {c c' : Cpu} (h : OkWin c)
    (hc : runCode (swapHead ++ swapTib ++ swapEnd) c = some c') {magic : Nat}
    (hm : rd c.mem (c.x 18 + 16) 8 ≠ magic) : rd c'.mem (c.x 1 + 184) 8 ≠ magic := by
  rw [(windows_overwrites_task h hc).2]
  exact hm

/-- **C161.**  And `create_task` (`src/events.c` lines 1741-1742) stores the
two fields over the bounds that `task_derive` put there, so that the first
switch to a task makes its end of the handle and the number the bounds of the
stack of the thread. -/
theorem windows_wrong_bounds {c c' : Cpu} (h : OkWin c)
    (hc : runCode (swapHead ++ swapTib ++ swapEnd) c = some c') {base magic : Nat}
    (hbase : rd c.mem (c.x 0 + 176) 8 = base) (hmagic : rd c.mem (c.x 0 + 184) 8 = magic) :
    rd c'.mem (c.x 18 + 8) 8 = base ∧ rd c'.mem (c.x 18 + 16) 8 = magic := by
  rw [swap_after_win h] at hc
  obtain rfl := Option.some.inj hc
  rw [← hbase, ← hmagic]
  exact win_bounds_loaded h

theorem two_okWin {k j sp : Nat} {m : Mem} (hk : k ≤ 1) (hj : j ≤ 1) (hne : j ≠ k)
    (h3 : sp ≤ 16) : OkWin (two (twoCtx j) (twoCtx k) sp m) where
  ok := two_ok (by omega) hk hj hne h3
  teb := by simp [two]
  tebApart := by
    simp [two, twoCtx, Apart]
    omega

/-- A switch between two handles, the thread described at 1024. -/
example : ∃ c', runCode (swapHead ++ swapTib ++ swapEnd)
    (two (twoCtx 1) (twoCtx 0) 8 (wr (fun _ => 0) 1040 8 0x5000)) = some c' ∧
    rd c'.mem (4096 + 184) 8 ≠ 0x7E3CB1A9 := by
  have h := two_okWin (k := 0) (j := 1) (sp := 8) (m := wr (fun _ => 0) 1040 8 0x5000) (by omega)
    (by omega) (by omega) (by omega)
  refine ⟨_, swap_after_win h, windows_task_unrecognised h (swap_after_win h) ?_⟩
  change rd (wr (fun _ => 0) 1040 8 0x5000) 1040 8 ≠ _
  rw [rd_wr_same]
  decide

set_option maxRecDepth 4000 in
/-- The hypotheses of `task_goes_on_a64_windows_partial` are met. -/
example : ∃ c st s s', Layout a64win twoCtx [(1032, 16)] ∧
    Reach a64win twoCtx [(1032, 16)] ⟨c, 0, fun _ => none⟩ st ∧
    st.susp 0 = some (s, s') ∧ Call a64win twoCtx [(1032, 16)] st.cpu st.cur 0 := by
  have h0 : OkWin (two (twoCtx 1) (twoCtx 0) 8 (fun x => x)) :=
    two_okWin (by omega) (by omega) (by omega) (by omega)
  have h1 : Call a64win twoCtx [(1032, 16)] (two (twoCtx 1) (twoCtx 0) 8 (fun x => x)) 0 1 :=
    ⟨h0, by omega, rfl, rfl, rfl, fun e he => nomatch he⟩
  have h2 : Call a64win twoCtx [(1032, 16)] (two (twoCtx 0) (twoCtx 1) 16
      (afterWin (two (twoCtx 1) (twoCtx 0) 8 (fun x => x))).mem) 1 0 :=
    ⟨two_okWin (by omega) (by omega) (by omega) (by omega), by omega, rfl, rfl, rfl,
      fun e he => nomatch he⟩
  have s1 := @Step.swap a64win twoCtx [(1032, 16)]
    ⟨two (twoCtx 1) (twoCtx 0) 8 (fun x => x), 0, fun _ => none⟩ 1 _ h1 (swap_after_win h0)
  refine ⟨_, _, _, _, ⟨fun i j h => ?_, fun i f hf => ?_⟩, .tail (.tail (.refl _) s1)
    (.run (c := two (twoCtx 0) (twoCtx 1) 16
      (afterWin (two (twoCtx 1) (twoCtx 0) 8 (fun x => x))).mem)
      (fun j s s' _ x _ => rfl)), rfl, h2⟩
  · change Apart (twoCtx i) 192 (twoCtx j) 192
    unfold Apart twoCtx
    omega
  · rw [List.mem_singleton] at hf
    subst hf
    change Apart 1032 16 (twoCtx i) 192
    unfold Apart twoCtx
    omega

end Verif.Switch.A64
