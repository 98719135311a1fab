import Verif.Switch.I386
import Verif.Switch.Returned

/-!
# C158: switching between tasks on 32 bit machines
-/

namespace Verif.Switch

/-- The registers a function has to preserve by the rules for 32 bit machines:
`ebx`, `ebp`, `esi`, `edi` (besides `esp`). -/
def i386Kept : List Nat := [3, 5, 6, 7]

/-- Values fit into machine words, and neither the memory for the registers
nor the stack reaches past the end of the address space. -/
structure I386Ok (c : Cpu) : Prop where
  word : ∀ r, c.reg r < 2 ^ 32
  load : c.reg 1 + 20 ≤ 2 ^ 32
  save : c.reg 2 + 20 ≤ 2 ^ 32
  stack : c.reg 4 + 4 < 2 ^ 32

/-- 32 bit: `coro_swap(ecx, edx)` ("fastcall"), `src/asm.c` lines 11-26.  The
handles point to 24 bytes for registers (`src/events_internal.h` lines
332-398), of which 20 are used. -/
def i386 : Arch where
  C := Cpu
  mem := Cpu.mem
  swap := runCode false i386Code
  load c := c.reg 1
  save c := c.reg 2
  size := 20
  ret c := [(c.reg 4, 4)]
  extra _ := []
  ok := I386Ok
  back := Returned 4 i386Kept

theorem i386_slots_apart (a : Nat) (f : Nat → Nat) :
    (i386Slots.map fun e => (off a e.2, 4, f e.1)).Pairwise
      fun e f => Apart e.1 e.2.1 f.1 f.2.1 := by
  simp [i386Slots, Apart, off]
  omega

theorem i386_slot {c : Cpu} (hA : c.reg 1 + 20 ≤ 2 ^ 32) (hB : c.reg 2 + 20 ≤ 2 ^ 32) {c' : Cpu}
    (h : runCode false i386Code c = some c') {r : Nat} {d : Int} (hd : (r, d) ∈ i386Slots) :
    rd c'.mem (off (c.reg 2) d) 4 = c.reg r % 256 ^ 4 := by
  rw [i386_run hA hB] at h
  obtain rfl := Option.some.inj h
  dsimp only
  exact rd_wrAll_mem (i386_slots_apart _ _) (List.mem_map.2 ⟨(r, d), hd, rfl⟩)

theorem i386_good : Good i386 where
  frame := by
    intro c c' ho hc x hx
    have hB := ho.save
    change runCode false i386Code c = some c' at hc
    rw [i386_run ho.load ho.save] at hc
    obtain rfl := Option.some.inj hc
    change ¬ Within [(c.reg 2, 20)] x at hx
    rw [within_one] at hx
    change wrAll _ _ x = c.mem x
    rw [wrAll_out, wr_out (by omega)]
    simp [i386Slots, off]
    omega
  resume := by
    intro s s' t t' hs hss ht htt hload hsame hret hsave _ _
    have hA := hs.load
    have hB := hs.save
    have hA' := ht.load
    have hB' := ht.save
    have hst := hs.stack
    change runCode false i386Code s = some s' at hss
    change runCode false i386Code t = some t' at htt
    change t.reg 1 = s.reg 2 at hload
    change Same [(s.reg 2, 20), (s.reg 4, 4)] t.mem s'.mem at hsame
    have r1 : Apart (s.reg 2) 20 (s.reg 4) 4 := hret (s.reg 4, 4) List.mem_cons_self
    have v1 : Apart (t.reg 2) 20 (s.reg 2) 20 := hsave (s.reg 2, 20) List.mem_cons_self
    have v2 : Apart (t.reg 2) 20 (s.reg 4) 4 :=
      hsave (s.reg 4, 4) (List.mem_cons_of_mem _ List.mem_cons_self)
    have k0 : rd s'.mem (s.reg 2) 4 = s.reg 4 := by
      rw [i386_run hA hB] at hss
      obtain rfl := Option.some.inj hss
      dsimp only
      rw [rd_wrAll_apart (by simp [i386Slots, Apart, off]; omega), rd_wr_same]
      exact Nat.mod_eq_of_lt (hs.word 4)
    have k1 : rd s'.mem (s.reg 4) 4 = rd s.mem (s.reg 4) 4 := by
      rw [i386_run hA hB] at hss
      obtain rfl := Option.some.inj hss
      dsimp only
      unfold Apart at r1
      rw [rd_wrAll_apart (by simp [i386Slots, Apart, off]; omega), rd_wr_apart (by unfold Apart; omega)]
    have k2 := @i386_slot s hA hB s' hss
    rw [i386_run hA' hB'] at htt
    replace htt := Option.some.inj htt
    unfold Apart at v1 v2
    have m0 : rd (wr t.mem (t.reg 2) 4 (t.reg 4)) (t.reg 1) 4 = s.reg 4 := by
      rw [hload, rd_wr_apart (by unfold Apart; omega),
        rd_same hsame List.mem_cons_self (Nat.le_refl _) (by omega), k0]
    have m1 : rd (wr t.mem (t.reg 2) 4 (t.reg 4)) (s.reg 4) 4 = rd s.mem (s.reg 4) 4 := by
      rw [rd_wr_apart (by unfold Apart; omega),
        rd_same hsame (List.mem_cons_of_mem _ List.mem_cons_self) (Nat.le_refl _) (by omega), k1]
    rw [m0, m1, hload] at htt
    subst htt
    refine ⟨rfl, ?_, ?_⟩
    · change setAll _ _ 4 = _
      rw [setAll_out (by simp [i386Slots]), set, if_neg (by decide), set, if_pos rfl]
      exact Nat.mod_eq_of_lt hst
    · intro r hr
      have key : ∀ d : Int, (r, d) ∈ i386Slots →
          setAll (set (set (set t.reg 4 (s.reg 4)) 4 ((s.reg 4 + 4) % 256 ^ 4)) 0
            (rd s.mem (s.reg 4) 4)) (i386Slots.map fun e => (e.1, rd (wrAll
            (wr t.mem (t.reg 2) 4 (t.reg 4))
            (i386Slots.map fun e => (off (t.reg 2) e.2, 4, t.reg e.1))) (off (s.reg 2) e.2) 4)) r =
            s.reg r := by
        intro d hd
        rw [setAll_mem (by simp [i386Slots]) (List.mem_map.2 ⟨(r, d), hd, rfl⟩)]
        have b : 4 ≤ d ∧ d ≤ 16 := by
          simp [i386Slots] at hd
          omega
        dsimp only
        rw [rd_wrAll_apart (by simp [i386Slots, Apart, off]; omega),
          rd_wr_apart (by unfold Apart off; omega),
          rd_same hsame List.mem_cons_self (by unfold off; omega) (by unfold off; omega), k2 hd]
        exact Nat.mod_eq_of_lt (hs.word r)
      simp only [i386Kept, List.mem_cons, List.not_mem_nil, or_false] at hr
      rcases hr with h | h | h | h <;> subst h
      · exact key 16 (by decide)
      · exact key 4 (by decide)
      · exact key 8 (by decide)
      · exact key 12 (by decide)

theorem i386_swap_total {c : Cpu} (h : I386Ok c) : ∃ c', runCode false i386Code c = some c' :=
  ⟨_, i386_run h.load h.save⟩

/-- **C158.**  In every execution of any number of tasks on one thread that
switch with `coro_swap`, whatever they do in between except to the memory of
suspended tasks: the switch does not fault, and the task `j` that is switched
to goes on exactly as if its own call of `coro_swap` had returned - at the
return address, with the stack pointer, `ebx`, `ebp`, `esi` and `edi` that it
had. -/
theorem task_goes_on_i386 {ctx : Nat → Nat} (hl : Layout i386 ctx []) {c : Cpu} {k : Nat}
    {st : Thr i386} (hr : Reach i386 ctx [] ⟨c, k, fun _ => none⟩ st) {j : Nat} {s s' : Cpu}
    (hj : st.susp j = some (s, s')) (hcall : Call i386 ctx [] st.cpu st.cur j) :
    ∃ t, runCode false i386Code st.cpu = some t ∧ Returned 4 i386Kept s t := by
  obtain ⟨t, ht⟩ := i386_swap_total hcall.ok
  exact ⟨t, ht, good_returns hl i386_good hr hj hcall ht⟩

/-- **C158.**  A switch changes no memory but the 20 bytes at the handle of
the task that stops. -/
theorem switch_writes_registers_only_i386 {c c' : Cpu} (h : I386Ok c)
    (hc : runCode false i386Code c = some c') {x : Nat}
    (hx : x < c.reg 2 ∨ c.reg 2 + 20 ≤ x) : c'.mem x = c.mem x :=
  i386_good.frame h hc x (by
    change ¬ Within [(c.reg 2, 20)] x
    rw [within_one]
    omega)

/-- **C158.**  A task that switches to itself just goes on. -/
theorem switch_to_itself_i386 {c c' : Cpu} (h : I386Ok c) (hself : c.reg 1 = c.reg 2)
    (hstack : Apart (c.reg 2) 20 (c.reg 4) 4)
    (hc : runCode false i386Code c = some c') : Returned 4 i386Kept c c' := by
  have hB := h.save
  have hst := h.stack
  have k2 := @i386_slot c h.load h.save c' hc
  rw [i386_run h.load h.save] at hc
  replace hc := Option.some.inj hc
  have m0 : rd (wr c.mem (c.reg 2) 4 (c.reg 4)) (c.reg 1) 4 = c.reg 4 := by
    rw [hself, rd_wr_same]
    exact Nat.mod_eq_of_lt (h.word 4)
  have m1 : rd (wr c.mem (c.reg 2) 4 (c.reg 4)) (c.reg 4) 4 = rd c.mem (c.reg 4) 4 := by
    unfold Apart at hstack
    rw [rd_wr_apart (by unfold Apart; omega)]
  rw [m0, m1, hself] at hc
  have hreg : c'.reg = setAll (set (set (set c.reg 4 (c.reg 4)) 4 ((c.reg 4 + 4) % 256 ^ 4)) 0
      (rd c.mem (c.reg 4) 4)) (i386Slots.map fun e => (e.1, rd c'.mem (off (c.reg 2) e.2) 4)) := by
    rw [← hc]
  refine ⟨by rw [← hc], ?_, ?_⟩
  · rw [hreg, setAll_out (by simp [i386Slots]), set, if_neg (by decide), set, if_pos rfl]
    exact Nat.mod_eq_of_lt hst
  · intro r hr
    have key : ∀ d : Int, (r, d) ∈ i386Slots → c'.reg r = c.reg r := by
      intro d hd
      rw [hreg, setAll_mem (by simp [i386Slots]) (List.mem_map.2 ⟨(r, d), hd, rfl⟩), k2 hd]
      exact Nat.mod_eq_of_lt (h.word r)
    simp only [i386Kept, List.mem_cons, List.not_mem_nil, or_false] at hr
    rcases hr with h | h | h | h <;> subst h
    · exact key 16 (by decide)
    · exact key 4 (by decide)
    · exact key 8 (by decide)
    · exact key 12 (by decide)


/-- Two tasks, handles at 4096 and 8192, stacks at 8 and 16. -/
def two32 (load save sp : Nat) (m : Mem) : Cpu where
  reg r := if r = 1 then load else if r = 2 then save else if r = 4 then sp else r % 8
  xmm _ := 0
  mem := m
  ip := 0
  gs := 0
  mxcsr := 0
  x87 := 0

def ctx32 (i : Nat) : Nat := 4096 * (i + 1)

theorem two32_call {k j sp : Nat} {m : Mem} (hk : k ≤ 1) (hj : j ≤ 1) (hn : j ≠ k)
    (h3 : sp ≤ 16) : Call i386 ctx32 [] (two32 (ctx32 j) (ctx32 k) sp m) k j where
  ok :=
    { word := fun r => by
        simp only [two32, ctx32]
        repeat' split
        all_goals omega
      load := by simp [two32, ctx32]; omega
      save := by simp [two32, ctx32]; omega
      stack := by simp [two32]; omega }
  other := hn
  load := rfl
  save := rfl
  extra := rfl
  ret e he := by
    change e ∈ [(sp, 4)] at he
    rw [List.mem_singleton] at he
    subst he
    refine ⟨fun i => ?_, fun f hf => by simp at hf⟩
    unfold Apart ctx32
    dsimp only
    omega

/-- The hypotheses of `task_goes_on_i386` are met by an execution: task 0
switches to task 1, which switches back. -/
example : ∃ st s s', Layout i386 ctx32 [] ∧
    Reach i386 ctx32 [] ⟨two32 (ctx32 1) (ctx32 0) 8 (fun x => x), 0, fun _ => none⟩ st ∧
    st.susp 0 = some (s, s') ∧ Call i386 ctx32 [] st.cpu st.cur 0 := by
  have h1 : Call i386 ctx32 [] (two32 (ctx32 1) (ctx32 0) 8 (fun x => x)) 0 1 :=
    two32_call (by omega) (by omega) (by omega) (by omega)
  obtain ⟨c', hc'⟩ := i386_swap_total h1.ok
  have s1 := @Step.swap i386 ctx32 [] ⟨two32 (ctx32 1) (ctx32 0) 8 (fun x => x), 0, fun _ => none⟩
    1 c' h1 hc'
  refine ⟨_, _, _, ⟨fun i j h => ?_, fun _ f h => by simp at h⟩, .tail (.tail (.refl _) s1)
    (.run (c := two32 (ctx32 0) (ctx32 1) 16 c'.mem) (fun j s s' _ x _ => rfl)), rfl,
    two32_call (k := 1) (j := 0) (by omega) (by omega) (by omega) (by omega)⟩
  change Apart (ctx32 i) 20 (ctx32 j) 20
  unfold Apart ctx32
  omega

/-- Those of `switch_to_itself_i386`. -/
example : ∃ c', runCode false i386Code (two32 4096 4096 8 fun _ => 0) = some c' ∧
    Returned 4 i386Kept (two32 4096 4096 8 fun _ => 0) c' := by
  have h : I386Ok (two32 4096 4096 8 fun _ => 0) :=
    { word := fun r => by
        simp only [two32]
        repeat' split
        all_goals omega
      load := by simp [two32]
      save := by simp [two32]
      stack := by simp [two32] }
  obtain ⟨c', hc⟩ := i386_swap_total h
  exact ⟨c', hc, switch_to_itself_i386 h rfl (by simp [Apart, two32]) hc⟩

end Verif.Switch
