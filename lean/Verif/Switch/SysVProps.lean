import Verif.Switch.SysV
import Verif.Switch.Returned

/-!
# C156: switching between tasks on 64 bit System V machines
-/

namespace Verif.Switch

/-- The registers a function has to preserve by the System V rules for 64 bit
machines: `rbx`, `rbp`, `r12` to `r15` (besides `rsp`). -/
def sysvKept : List Nat := [3, 5, 12, 13, 14, 15]

/-- Values fit into machine words, and neither the memory for the registers
nor the stack reaches past the end of the address space. -/
structure SysvOk (c : Cpu) : Prop where
  word : ∀ r, c.reg r < 2 ^ 64
  load : c.reg 7 + 56 ≤ 2 ^ 64
  save : c.reg 6 + 56 ≤ 2 ^ 64
  stack : c.reg 4 + 8 < 2 ^ 64

/-- 64 bit System V: `coro_swap(rdi, rsi)`, `src/asm.c` lines 139-158.  The
handles point to 64 bytes for registers (`src/events_internal.h` lines
332-398), of which 56 are used. -/
def sysv : Arch where
  C := Cpu
  mem := Cpu.mem
  swap := runCode true sysvCode
  load c := c.reg 7
  save c := c.reg 6
  size := 56
  ret c := [(c.reg 4, 8)]
  extra _ := []
  ok := SysvOk
  back := Returned 8 sysvKept

theorem sysv_slots_apart (a : Nat) (f : Nat → Nat) :
    (sysvSlots.map fun e => (off a e.2, 8, f e.1)).Pairwise
      fun e f => Apart e.1 e.2.1 f.1 f.2.1 := by
  simp [sysvSlots, Apart, off]
  omega

theorem sysv_slot {c : Cpu} (hA : c.reg 7 + 56 ≤ 2 ^ 64) (hB : c.reg 6 + 56 ≤ 2 ^ 64) {c' : Cpu}
    (h : runCode true sysvCode c = some c') {r : Nat} {d : Int} (hd : (r, d) ∈ sysvSlots) :
    rd c'.mem (off (c.reg 6) d) 8 = c.reg r % 256 ^ 8 := by
  rw [sysv_run hA hB] at h
  obtain rfl := Option.some.inj h
  dsimp only
  exact rd_wrAll_mem (sysv_slots_apart _ _) (List.mem_map.2 ⟨(r, d), hd, rfl⟩)

theorem sysv_good : Good sysv where
  frame := by
    intro c c' ho hc x hx
    have hB := ho.save
    change runCode true sysvCode c = some c' at hc
    rw [sysv_run ho.load ho.save] at hc
    obtain rfl := Option.some.inj hc
    change ¬ Within [(c.reg 6, 56)] x at hx
    rw [within_one] at hx
    change wrAll _ _ x = c.mem x
    rw [wrAll_out, wr_out (by omega)]
    simp [sysvSlots, off]
    omega
  resume := by
    intro s s' t t' hs hss ht htt hload hsame hret hsave _ _
    have hA := hs.load
    have hB := hs.save
    have hA' := ht.load
    have hB' := ht.save
    have hst := hs.stack
    change runCode true sysvCode s = some s' at hss
    change runCode true sysvCode t = some t' at htt
    change t.reg 7 = s.reg 6 at hload
    change Same [(s.reg 6, 56), (s.reg 4, 8)] t.mem s'.mem at hsame
    have r1 : Apart (s.reg 6) 56 (s.reg 4) 8 := hret (s.reg 4, 8) List.mem_cons_self
    have v1 : Apart (t.reg 6) 56 (s.reg 6) 56 := hsave (s.reg 6, 56) List.mem_cons_self
    have v2 : Apart (t.reg 6) 56 (s.reg 4) 8 :=
      hsave (s.reg 4, 8) (List.mem_cons_of_mem _ List.mem_cons_self)
    have k0 : rd s'.mem (s.reg 6) 8 = s.reg 4 := by
      rw [sysv_run hA hB] at hss
      obtain rfl := Option.some.inj hss
      dsimp only
      rw [rd_wrAll_apart (by simp [sysvSlots, Apart, off]; omega), rd_wr_same]
      exact Nat.mod_eq_of_lt (hs.word 4)
    have k1 : rd s'.mem (s.reg 4) 8 = rd s.mem (s.reg 4) 8 := by
      rw [sysv_run hA hB] at hss
      obtain rfl := Option.some.inj hss
      dsimp only
      unfold Apart at r1
      rw [rd_wrAll_apart (by simp [sysvSlots, Apart, off]; omega), rd_wr_apart (by unfold Apart; omega)]
    have k2 := @sysv_slot s hA hB s' hss
    rw [sysv_run hA' hB'] at htt
    replace htt := Option.some.inj htt
    unfold Apart at v1 v2
    have m0 : rd (wr t.mem (t.reg 6) 8 (t.reg 4)) (t.reg 7) 8 = s.reg 4 := by
      rw [hload, rd_wr_apart (by unfold Apart; omega),
        rd_same hsame List.mem_cons_self (Nat.le_refl _) (by omega), k0]
    have m1 : rd (wr t.mem (t.reg 6) 8 (t.reg 4)) (s.reg 4) 8 = rd s.mem (s.reg 4) 8 := by
      rw [rd_wr_apart (by unfold Apart; omega),
        rd_same hsame (List.mem_cons_of_mem _ List.mem_cons_self) (Nat.le_refl _) (by omega), k1]
    rw [m0, m1, hload] at htt
    subst htt
    refine ⟨rfl, ?_, ?_⟩
    · change setAll _ _ 4 = _
      rw [setAll_out (by simp [sysvSlots]), set, if_neg (by decide), set, if_pos rfl]
      exact Nat.mod_eq_of_lt hst
    · intro r hr
      have key : ∀ d : Int, (r, d) ∈ sysvSlots →
          setAll (set (set (set t.reg 4 (s.reg 4)) 4 ((s.reg 4 + 8) % 256 ^ 8)) 0
            (rd s.mem (s.reg 4) 8)) (sysvSlots.map fun e => (e.1, rd (wrAll
            (wr t.mem (t.reg 6) 8 (t.reg 4))
            (sysvSlots.map fun e => (off (t.reg 6) e.2, 8, t.reg e.1))) (off (s.reg 6) e.2) 8)) r =
            s.reg r := by
        intro d hd
        rw [setAll_mem (by simp [sysvSlots]) (List.mem_map.2 ⟨(r, d), hd, rfl⟩)]
        have b : 8 ≤ d ∧ d ≤ 48 := by
          simp [sysvSlots] at hd
          omega
        dsimp only
        rw [rd_wrAll_apart (by simp [sysvSlots, Apart, off]; omega),
          rd_wr_apart (by unfold Apart off; omega),
          rd_same hsame List.mem_cons_self (by unfold off; omega) (by unfold off; omega), k2 hd]
        exact Nat.mod_eq_of_lt (hs.word r)
      simp only [sysvKept, List.mem_cons, List.not_mem_nil, or_false] at hr
      rcases hr with h | h | h | h | h | h <;> subst h
      · exact key 16 (by decide)
      · exact key 8 (by decide)
      · exact key 24 (by decide)
      · exact key 32 (by decide)
      · exact key 40 (by decide)
      · exact key 48 (by decide)

theorem sysv_swap_total {c : Cpu} (h : SysvOk c) : ∃ c', runCode true sysvCode c = some c' :=
  ⟨_, sysv_run h.load h.save⟩

/-- **C156.**  In every execution of any number of tasks on one thread that
switch with `coro_swap`, whatever they do in between except to the memory of
suspended tasks: the switch does not fault, and the task `j` that is switched
to goes on exactly as if its own call of `coro_swap` had returned - at the
return address, with the stack pointer, `rbx`, `rbp` and `r12` to `r15` that it
had. -/
theorem task_goes_on_sysv {ctx : Nat → Nat} (hl : Layout sysv ctx []) {c : Cpu} {k : Nat}
    {st : Thr sysv} (hr : Reach sysv ctx [] ⟨c, k, fun _ => none⟩ st) {j : Nat} {s s' : Cpu}
    (hj : st.susp j = some (s, s')) (hcall : Call sysv ctx [] st.cpu st.cur j) :
    ∃ t, runCode true sysvCode st.cpu = some t ∧ Returned 8 sysvKept s t := by
  obtain ⟨t, ht⟩ := sysv_swap_total hcall.ok
  exact ⟨t, ht, good_returns hl sysv_good hr hj hcall ht⟩

/-- **C156.**  A switch changes no memory but the 56 bytes at the handle of
the task that stops. -/
theorem switch_writes_registers_only_sysv {c c' : Cpu} (h : SysvOk c)
    (hc : runCode true sysvCode c = some c') {x : Nat}
    (hx : x < c.reg 6 ∨ c.reg 6 + 56 ≤ x) : c'.mem x = c.mem x :=
  sysv_good.frame h hc x (by
    change ¬ Within [(c.reg 6, 56)] x
    rw [within_one]
    omega)

/-- **C156.**  A task that switches to itself just goes on. -/
theorem switch_to_itself_sysv {c c' : Cpu} (h : SysvOk c) (hself : c.reg 7 = c.reg 6)
    (hstack : Apart (c.reg 6) 56 (c.reg 4) 8)
    (hc : runCode true sysvCode c = some c') : Returned 8 sysvKept c c' := by
  have hB := h.save
  have hst := h.stack
  have k2 := @sysv_slot c h.load h.save c' hc
  rw [sysv_run h.load h.save] at hc
  replace hc := Option.some.inj hc
  have m0 : rd (wr c.mem (c.reg 6) 8 (c.reg 4)) (c.reg 7) 8 = c.reg 4 := by
    rw [hself, rd_wr_same]
    exact Nat.mod_eq_of_lt (h.word 4)
  have m1 : rd (wr c.mem (c.reg 6) 8 (c.reg 4)) (c.reg 4) 8 = rd c.mem (c.reg 4) 8 := by
    unfold Apart at hstack
    rw [rd_wr_apart (by unfold Apart; omega)]
  rw [m0, m1, hself] at hc
  have hreg : c'.reg = setAll (set (set (set c.reg 4 (c.reg 4)) 4 ((c.reg 4 + 8) % 256 ^ 8)) 0
      (rd c.mem (c.reg 4) 8)) (sysvSlots.map fun e => (e.1, rd c'.mem (off (c.reg 6) e.2) 8)) := by
    rw [← hc]
  refine ⟨by rw [← hc], ?_, ?_⟩
  · rw [hreg, setAll_out (by simp [sysvSlots]), set, if_neg (by decide), set, if_pos rfl]
    exact Nat.mod_eq_of_lt hst
  · intro r hr
    have key : ∀ d : Int, (r, d) ∈ sysvSlots → c'.reg r = c.reg r := by
      intro d hd
      rw [hreg, setAll_mem (by simp [sysvSlots]) (List.mem_map.2 ⟨(r, d), hd, rfl⟩), k2 hd]
      exact Nat.mod_eq_of_lt (h.word r)
    simp only [sysvKept, List.mem_cons, List.not_mem_nil, or_false] at hr
    rcases hr with h | h | h | h | h | h <;> subst h
    · exact key 16 (by decide)
    · exact key 8 (by decide)
    · exact key 24 (by decide)
    · exact key 32 (by decide)
    · exact key 40 (by decide)
    · exact key 48 (by decide)

/-- **C157.**  The control bits of the floating point units, which by the same
rules a function has to preserve, stay those of the task that stops. -/
theorem control_bits_of_the_other {c c' : Cpu} (h : SysvOk c)
    (hc : runCode true sysvCode c = some c') : c'.mxcsr = c.mxcsr ∧ c'.x87 = c.x87 := by
  rw [sysv_run h.load h.save] at hc
  obtain rfl := Option.some.inj hc
  exact ⟨rfl, rfl⟩

/-- Two tasks, handles at 4096 and 8192, stacks at 8 and 16. -/
def twoCtx (i : Nat) : Nat := 4096 * (i + 1)

def twoCpu (load save sp ctl : Nat) (m : Mem) : Cpu where
  reg r := if r = 7 then load else if r = 6 then save else if r = 4 then sp else r % 16
  xmm _ := 0
  mem := m
  ip := 0
  gs := 0
  mxcsr := ctl
  x87 := ctl

theorem two_layout : Layout sysv twoCtx [] where
  apart i j h := by
    change Apart (twoCtx i) 56 (twoCtx j) 56
    unfold Apart twoCtx
    omega
  teb _ f h := by simp at h

theorem two_ok {load save sp ctl : Nat} {m : Mem} (h1 : load ≤ 8192) (h2 : save ≤ 8192)
    (h3 : sp ≤ 16) : SysvOk (twoCpu load save sp ctl m) where
  word r := by
    simp only [twoCpu]
    repeat' split
    all_goals omega
  load := by simp [twoCpu]; omega
  save := by simp [twoCpu]; omega
  stack := by simp [twoCpu]; omega

theorem two_call {k j sp ctl : Nat} {m : Mem} (hk : k ≤ 1) (hj : j ≤ 1) (hn : j ≠ k)
    (h3 : sp ≤ 16) : Call sysv twoCtx [] (twoCpu (twoCtx j) (twoCtx k) sp ctl m) k j where
  ok := two_ok (by unfold twoCtx; omega) (by unfold twoCtx; omega) h3
  other := hn
  load := rfl
  save := rfl
  extra := rfl
  ret e he := by
    change e ∈ [(sp, 8)] at he
    rw [List.mem_singleton] at he
    subst he
    refine ⟨fun i => ?_, fun f hf => by simp at hf⟩
    unfold Apart twoCtx
    dsimp only
    omega

theorem two_step {ctl : Nat} {m : Mem} {c' : Cpu}
    (hc : runCode true sysvCode (twoCpu (twoCtx 1) (twoCtx 0) 8 ctl m) = some c') :
    Step sysv twoCtx [] ⟨twoCpu (twoCtx 1) (twoCtx 0) 8 ctl m, 0, fun _ => none⟩
      ⟨c', 1, fun i => if i = 0 then some (twoCpu (twoCtx 1) (twoCtx 0) 8 ctl m, c')
        else if i = 1 then none else none⟩ :=
  @Step.swap sysv twoCtx [] ⟨twoCpu (twoCtx 1) (twoCtx 0) 8 ctl m, 0, fun _ => none⟩ 1 c'
    (two_call (by omega) (by omega) (by omega) (by omega)) hc

/-- An execution: task 0 switches to task 1, which changes the control bits
and switches back. -/
theorem two_tasks (ctl ctl' : Nat) (m : Mem) : ∃ st s s',
    Reach sysv twoCtx [] ⟨twoCpu (twoCtx 1) (twoCtx 0) 8 ctl m, 0, fun _ => none⟩ st ∧
    st.susp 0 = some (s, s') ∧ s.mxcsr = ctl ∧ s.x87 = ctl ∧
    Call sysv twoCtx [] st.cpu st.cur 0 ∧ st.cpu.mxcsr = ctl' ∧ st.cpu.x87 = ctl' := by
  have h1 := two_call (k := 0) (j := 1) (sp := 8) (ctl := ctl) (m := m) (by omega) (by omega)
    (by omega) (by omega)
  obtain ⟨c', hc'⟩ := sysv_swap_total h1.ok
  refine ⟨_, _, _, .tail (.tail (.refl _) (two_step hc'))
    (.run (c := twoCpu (twoCtx 0) (twoCtx 1) 16 ctl' c'.mem) (fun j s s' _ x _ => rfl)), rfl, rfl, rfl,
    two_call (k := 1) (j := 0) (by omega) (by omega) (by omega) (by omega), rfl, rfl⟩

/-- The hypotheses of `task_goes_on_sysv` are met by an execution. -/
example : ∃ st s s',
    Reach sysv twoCtx [] ⟨twoCpu (twoCtx 1) (twoCtx 0) 8 0 (fun x => x), 0, fun _ => none⟩ st ∧
    st.susp 0 = some (s, s') ∧
    ∃ t, runCode true sysvCode st.cpu = some t ∧ Returned 8 sysvKept s t := by
  obtain ⟨st, s, s', h, hj, _, _, hc, _⟩ := two_tasks 0 0 fun x => x
  exact ⟨st, s, s', h, hj, task_goes_on_sysv two_layout h hj hc⟩

/-- Those of `switch_to_itself_sysv`. -/
example : ∃ c', runCode true sysvCode (twoCpu 4096 4096 8 0 fun _ => 0) = some c' ∧
    Returned 8 sysvKept (twoCpu 4096 4096 8 0 fun _ => 0) c' := by
  have h : SysvOk (twoCpu 4096 4096 8 0 fun _ => 0) := two_ok (by omega) (by omega) (by omega)
  obtain ⟨c', hc⟩ := sysv_swap_total h
  exact ⟨c', hc, switch_to_itself_sysv h rfl (by simp [Apart, twoCpu]) hc⟩

/-- **C157.**  It is not true that a call of `coro_swap` preserves the control
bits: whatever they were, there is an execution in which a task goes on with
others.  So a task that changes the rounding of floating point numbers changes
it for all tasks of the thread. -/
theorem control_bits_leak {ctl ctl' : Nat} (hne : ctl' ≠ ctl) : ∃ ctx c k st j s s' t,
    Layout sysv ctx [] ∧ Reach sysv ctx [] ⟨c, k, fun _ => none⟩ st ∧
    st.susp j = some (s, s') ∧ Call sysv ctx [] st.cpu st.cur j ∧
    runCode true sysvCode st.cpu = some t ∧ s.mxcsr = ctl ∧ s.x87 = ctl ∧
    t.mxcsr ≠ s.mxcsr ∧ t.x87 ≠ s.x87 := by
  obtain ⟨st, s, s', h, hj, e1, e2, hc, e3, e4⟩ := two_tasks ctl ctl' fun _ => 0
  obtain ⟨t, ht⟩ := sysv_swap_total hc.ok
  have q := control_bits_of_the_other hc.ok ht
  exact ⟨twoCtx, _, 0, st, 0, s, s', t, two_layout, h, hj, hc, ht, e1, e2,
    by rw [q.1, e3, e1]; exact hne, by rw [q.2, e4, e2]; exact hne⟩

/-- An execution in which no task changes the control bits while it runs. -/
inductive CalmReach (ctx : Nat → Nat) : Thr sysv → Thr sysv → Prop
  | refl (st : Thr sysv) : CalmReach ctx st st
  | tail {st st' st'' : Thr sysv} (h : CalmReach ctx st st') (h' : Step sysv ctx [] st' st'')
      (hcalm : st''.cur = st'.cur →
        st''.cpu.mxcsr = st'.cpu.mxcsr ∧ st''.cpu.x87 = st'.cpu.x87) : CalmReach ctx st st''

theorem calm_inv {ctx : Nat → Nat} {st st' : Thr sysv} (hr : CalmReach ctx st st')
    (h : ∀ j s s', st.susp j = some (s, s') → s.mxcsr = st.cpu.mxcsr ∧ s.x87 = st.cpu.x87) :
    ∀ j s s', st'.susp j = some (s, s') → s.mxcsr = st'.cpu.mxcsr ∧ s.x87 = st'.cpu.x87 := by
  induction hr with
  | refl => exact h
  | tail _ h' hcalm ih =>
    cases h' with
    | run hr =>
      intro j s s' hj
      have q := hcalm rfl
      rw [q.1, q.2]
      exact ih j s s' hj
    | @swap j c hcall hc =>
      intro i s s' hi
      have q := control_bits_of_the_other hcall.ok hc
      dsimp only at hi ⊢
      rw [q.1, q.2]
      split at hi
      · simp only [Option.some.injEq, Prod.mk.injEq] at hi
        rw [← hi.1]
        exact ⟨rfl, rfl⟩
      · split at hi
        · simp at hi
        · exact ih i s s' hi

/-- **C157, what does hold.**  If no task changes the control bits while it
runs, each finds them again when it goes on. -/
theorem control_bits_partial {ctx : Nat → Nat} {c : Cpu} {k : Nat} {st : Thr sysv}
    (hr : CalmReach ctx ⟨c, k, fun _ => none⟩ st) {j : Nat} {s s' t : Cpu}
    (hj : st.susp j = some (s, s')) (hcall : Call sysv ctx [] st.cpu st.cur j)
    (ht : runCode true sysvCode st.cpu = some t) : t.mxcsr = s.mxcsr ∧ t.x87 = s.x87 := by
  have q := calm_inv hr (by intro j s s' h; simp at h) j s s' hj
  have q' := control_bits_of_the_other hcall.ok ht
  rw [q'.1, q'.2, q.1, q.2]
  exact ⟨rfl, rfl⟩

/-- There are such executions. -/
example : ∃ st s s',
    CalmReach twoCtx ⟨twoCpu (twoCtx 1) (twoCtx 0) 8 0x1f80 fun _ => 0, 0, fun _ => none⟩ st ∧
    st.susp 0 = some (s, s') ∧ Call sysv twoCtx [] st.cpu st.cur 0 := by
  have h1 := two_call (k := 0) (j := 1) (sp := 8) (ctl := 0x1f80) (m := fun _ => 0) (by omega)
    (by omega) (by omega) (by omega)
  obtain ⟨c', hc'⟩ := sysv_swap_total h1.ok
  have q := control_bits_of_the_other h1.ok hc'
  refine ⟨_, _, _, .tail (.tail (.refl _) (two_step hc') (by simp))
    (.run (c := twoCpu (twoCtx 0) (twoCtx 1) 16 0x1f80 c'.mem) (fun j s s' _ x _ => rfl))
    (fun _ => ⟨q.1.symm, q.2.symm⟩), rfl,
    two_call (k := 1) (j := 0) (by omega) (by omega) (by omega) (by omega)⟩

end Verif.Switch
