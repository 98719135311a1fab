import Verif.Rp.HeapInv

/-!
# Claims C132, C134 and C135: blocks are handed out once, counters agree, spans are reused
-/

namespace Verif.Rp

theorem Cfg.Ok.pos {c : Cfg} (ok : c.Ok) (b : Nat) : 0 < c.count b := by
  have := (ok.fits b).2.2.1
  omega

theorem init_inv (c : Cfg) : Inv c .init [] := by
  refine ⟨List.nodup_nil, List.nodup_nil, by simp [St.init], by simp [St.init], by simp [St.init],
    by simp [St.init], by simp [St.init], by simp, by simp [St.init], by simp [St.init], by simp [St.init]⟩

/-- A request keeps the invariant; without a new span it may fail. -/
theorem malloc_inv {c : Cfg} (ok : c.Ok) {st : St} {held : List Held} (I : Inv c st held) (b : Nat) (p : Pick) :
    ∃ st' r, malloc c st b p = some (st', r) ∧ Inv c st' (heldAfter held (.malloc b p) r) ∧
      (r = none → st.free b = [] ∧ st.part b = [] ∧ st' = st) := by
  cases hf : st.free b with
  | cons x xs =>
    refine ⟨_, _, by unfold malloc; rw [hf], malloc_pop I hf, fun h => by simp at h⟩
  | nil =>
    cases hp : st.part b with
    | cons s rest =>
      obtain ⟨st', x, e, I'⟩ := malloc_part ok.pos I hf hp p
      exact ⟨st', _, e, I', fun h => by simp at h⟩
    | nil =>
      cases hpk : pick st p with
      | none => exact ⟨st, none, by unfold malloc; simp only [hf, hp, hpk], I, fun _ => ⟨rfl, rfl, rfl⟩⟩
      | some r =>
        obtain ⟨s, st1⟩ := r
        obtain ⟨st', e, I'⟩ := malloc_new ok.pos I hf hp hpk
        exact ⟨st', _, e, I', fun h => by simp at h⟩

/-- Every operation is possible and keeps the invariant. -/
theorem step_inv {c : Cfg} (ok : c.Ok) {st : St} {held : List Held} (I : Inv c st held) {op : Op} (hl : Legal held op) :
    ∃ st' r, step c st op = some (st', r) ∧ Inv c st' (heldAfter held op r) := by
  cases op with
  | malloc b p =>
    obtain ⟨st', r, e, I', _⟩ := malloc_inv ok I b p
    exact ⟨st', r, e, I'⟩
  | freeDirect s i =>
    obtain ⟨x, hx, rfl, rfl⟩ := hl
    obtain ⟨st', e, I'⟩ := freeDirect_inv ok.pos I hx
    exact ⟨st', none, by rw [step, e]; rfl, I'⟩
  | freeDefer s i =>
    obtain ⟨x, hx, rfl, rfl⟩ := hl
    exact ⟨_, none, rfl, freeDefer_inv ok.pos I hx⟩
  | adopt h =>
    obtain ⟨st', e, I'⟩ := adopt_inv ok.pos (st.sfd h) rfl I
    exact ⟨st', none, by rw [step, adopt, e]; rfl, I'⟩
  | unmap j =>
    rw [step]
    cases h : st.cache[j]? with
    | none => exact ⟨st, none, rfl, I⟩
    | some s => exact ⟨_, none, rfl, unmap_inv I h⟩

theorem reach_inv {c : Cfg} (ok : c.Ok) {st : St} {held : List Held} (h : Reach c st held) : Inv c st held := by
  induction h with
  | init => exact init_inv c
  | step _ hl he ih =>
    obtain ⟨st', r, e, I'⟩ := step_inv ok ih hl
    rw [he] at e
    simp only [Option.some.injEq, Prod.mk.injEq] at e
    obtain ⟨rfl, rfl⟩ := e
    exact I'

/-- Claim C134: whatever was allocated and freed before, as long as only blocks which are held are freed, every operation is
possible: no counter becomes negative, and spans are removed only from lists they are in. -/
theorem counters_never_broken {c : Cfg} (ok : c.Ok) {st : St} {held : List Held} (h : Reach c st held) {op : Op}
    (hl : Legal held op) : ∃ st' r, step c st op = some (st', r) := by
  obtain ⟨st', r, e, _⟩ := step_inv ok (reach_inv ok h) hl
  exact ⟨st', r, e⟩

/-- The first address of a block, and the address after it. -/
def Held.start (c : Cfg) (x : Held) : Nat := c.base x.s + hdr + x.i * c.size x.b

/-- The address after the block. -/
def Held.stop (c : Cfg) (x : Held) : Nat := c.base x.s + hdr + (x.i + 1) * c.size x.b

/-- Claim C132: after any sequence of operations, any two blocks which are held do not overlap; each of them lies in a span which
is mapped, behind its header, and starts at a multiple of 16. -/
theorem held_blocks_disjoint {c : Cfg} (ok : c.Ok) {st : St} {held : List Held} (h : Reach c st held) :
    held.Pairwise (fun x y => x.stop c ≤ y.start c ∨ y.stop c ≤ x.start c) ∧
    ∀ x ∈ held, x.s ∈ st.mapped ∧ c.base x.s + hdr ≤ x.start c ∧ x.stop c ≤ c.base x.s + spanSize ∧ 16 ∣ x.start c := by
  have I := reach_inv ok h
  have hin : ∀ x ∈ held, x.s ∈ st.mapped ∧ c.base x.s + hdr ≤ x.start c ∧ x.stop c ≤ c.base x.s + spanSize ∧ 16 ∣ x.start c := by
    intro x hx
    obtain ⟨h1, h2⟩ := I.heldOk x hx
    obtain ⟨_, _, _, _, h5⟩ := I.place hx
    have h6 := (I.lim x.s h1).1
    rw [h2] at h6
    obtain ⟨f1, _, _, f4, _⟩ := ok.fits x.b
    have h7 : (x.i + 1) * c.size x.b ≤ c.count x.b * c.size x.b := Nat.mul_le_mul_right _ (by omega)
    refine ⟨I.actm _ h1, ?_, ?_, ?_⟩
    · unfold Held.start; omega
    · unfold Held.stop; omega
    · unfold Held.start
      refine Nat.dvd_add (Nat.dvd_add (Nat.dvd_trans (by decide) (ok.base x.s)) (by decide)) (Nat.dvd_trans f1 (Nat.dvd_mul_left _ _))
  refine ⟨?_, hin⟩
  rw [List.pairwise_iff_forall_sublist]
  intro x y hsub
  have hx : x ∈ held := hsub.subset (by simp)
  have hy : y ∈ held := hsub.subset (by simp)
  obtain ⟨_, x1, x2, _⟩ := hin x hx
  obtain ⟨_, y1, y2, _⟩ := hin y hy
  by_cases hs : x.s = y.s
  · have hi : x.i ≠ y.i := fun e => by
      have h1 := (I.place hx).1
      have h2 : ([x, y].countP fun z => decide (z.s = x.s ∧ z.i = x.i)) ≤ hc held x.s x.i := hsub.countP_le
      have h3 : ([x, y].countP fun z => decide (z.s = x.s ∧ z.i = x.i)) = 2 := by
        simp [hs, e]
      omega
    have hb : x.b = y.b := by
      rw [← (I.heldOk x hx).2, ← (I.heldOk y hy).2, hs]
    unfold Held.start Held.stop
    rw [hs, hb]
    rcases Nat.lt_or_ge x.i y.i with hlt | hge
    · left
      have : (x.i + 1) * c.size y.b ≤ y.i * c.size y.b := Nat.mul_le_mul_right _ hlt
      omega
    · right
      have : (y.i + 1) * c.size y.b ≤ x.i * c.size y.b := Nat.mul_le_mul_right _ (by omega)
      omega
  · have hne : c.base x.s ≠ c.base y.s := fun e => hs (ok.inj _ _ e)
    obtain ⟨a, ha⟩ := ok.base x.s
    obtain ⟨b, hb⟩ := ok.base y.s
    have hS : spanSize = 65536 := rfl
    rw [hS] at ha hb x2 y2
    have hH : hdr = 128 := rfl
    omega

/-- Claim C132 (for one request): a block which is handed out was not held, has a number below the number of blocks of its
bin, and everything held before still is. -/
theorem malloc_hands_out_new {c : Cfg} (ok : c.Ok) {st st' : St} {held : List Held} (h : Reach c st held) {b : Nat} {p : Pick}
    {x : Nat × Nat} (hm : step c st (.malloc b p) = some (st', some x)) :
    (∀ y ∈ held, ¬ (y.s = x.1 ∧ y.i = x.2)) ∧ x.2 < c.count b := by
  have h' := Reach.step h (op := .malloc b p) trivial hm
  have I := reach_inv ok h'
  have hx : (⟨x.1, x.2, b⟩ : Held) ∈ heldAfter held (.malloc b p) (some x) := List.mem_cons_self ..
  obtain ⟨h1, _, _, _, h5⟩ := I.place hx
  have h6 := I.lim _ (I.heldOk _ hx).1
  rw [(I.heldOk _ hx).2] at h6
  refine ⟨fun y hy e => ?_, by dsimp only at *; omega⟩
  change hc (⟨x.1, x.2, b⟩ :: held) x.1 x.2 = 1 at h1
  rw [hc_cons, if_pos ⟨rfl, rfl⟩] at h1
  have := hc_pos hy
  rw [e.1, e.2] at this
  omega

/-- Claim C135: a request takes a new span only if every block of every span of its bin is held, or was freed by another thread
and not collected yet. -/
theorem new_span_only_if_used_up {c : Cfg} (ok : c.Ok) {st st' : St} {held : List Held} (h : Reach c st held) {b : Nat}
    (hm : step c st (.malloc b .fail) = some (st', none)) (s : Nat) (ha : (st.span s).act = true) (hb : (st.span s).bin = b)
    (i : Nat) (hi : i < c.count b) : (⟨s, i, b⟩ : Held) ∈ held ∨ i ∈ (st.span s).dfl := by
  have I := reach_inv ok h
  obtain ⟨st1, r, e, _, hnone⟩ := malloc_inv ok I b .fail
  rw [step, e] at hm
  simp only [Option.some.injEq, Prod.mk.injEq] at hm
  obtain ⟨h1, h2, _⟩ := hnone hm.2
  have hfull : isFull c (st.span s) = true := by
    cases hf : isFull c (st.span s) with
    | true => rfl
    | false =>
      have := ((I.part b).2 s).mpr ⟨ha, hb, hf⟩
      rw [h2] at this
      exact absurd this (by simp)
  unfold isFull at hfull
  simp only [Bool.and_eq_true, List.isEmpty_iff, decide_eq_true_eq] at hfull
  have hbk := I.blocks s ha i
  rw [hb, h1, hfull.1, List.count_nil, List.count_nil] at hbk
  rw [hb] at hfull
  unfold below at hbk
  rw [if_pos (by omega)] at hbk
  by_cases hd : (st.span s).dfl.count i = 0
  · left
    have hpos : 0 < hc held s i := by omega
    obtain ⟨y, hy, e⟩ := List.countP_pos_iff.mp hpos
    simp only [decide_eq_true_eq] at e
    have hyb := (I.heldOk y hy).2
    obtain ⟨ys, yi, yb⟩ := y
    dsimp only at *
    rw [e.1, hb] at hyb
    rw [← e.1, ← e.2, hyb]
    exact hy
  · right
    exact List.count_pos_iff.mp (by omega)

/-- Claim C135 (giving spans back): when the owner frees a block, no other block of its span is held and none of them waits in
the free list of the bin, the span is kept for other uses; spans kept for other uses have no block which is held. -/
theorem span_given_back {c : Cfg} (ok : c.Ok) {st : St} {held : List Held} (h : Reach c st held) :
    (∀ x ∈ held, (∀ y ∈ held, y.s = x.s → y.i = x.i) → (∀ y ∈ st.free x.b, y.1 ≠ x.s) →
      ∃ st', step c st (.freeDirect x.s x.i) = some (st', none) ∧ x.s ∈ st'.cache) ∧
    (∀ s ∈ st.cache, ∀ x ∈ held, x.s ≠ s) := by
  have I := reach_inv ok h
  refine ⟨fun x hx hone hfree => ?_, fun s hs x hx e => ?_⟩
  · obtain ⟨ha, hb⟩ := I.heldOk x hx
    obtain ⟨p1, p2, p3, p4, p5⟩ := I.place hx
    obtain ⟨l1, l2, l3⟩ := I.lim x.s ha
    -- everything else is in the lists of the span
    have hlen : (x.i :: ((st.span x.s).fl ++ (st.span x.s).dfl)).length = (st.span x.s).limit := by
      apply pigeon'
      intro j
      have h1 := I.blocks x.s ha j
      rw [List.count_cons, List.count_append]
      have hf0 : (st.free (st.span x.s).bin).count (x.s, j) = 0 := by
        refine List.count_eq_zero_of_not_mem fun hm => ?_
        rw [hb] at hm
        exact hfree _ hm rfl
      rw [hf0] at h1
      unfold below at h1
      by_cases e : x.i = j
      · subst e
        rw [p1] at h1
        rw [if_pos (by simp)]
        omega
      · have hz : hc held x.s j = 0 := by
          unfold hc
          rw [List.countP_eq_zero]
          intro y hy hyy
          simp only [decide_eq_true_eq] at hyy
          exact e ((hone y hy hyy.1).symm.trans hyy.2)
        rw [hz] at h1
        rw [if_neg (by simpa using e)]
        omega
    rw [List.length_cons, List.length_append] at hlen
    obtain ⟨st', e, _⟩ := freeDirect_inv ok.pos I hx
    refine ⟨st', by rw [step, e]; rfl, ?_⟩
    unfold freeDirect at e
    split at e
    · simp at e
    · rename_i st1 hun
      have hsp : (st1.span x.s).used = (st.span x.s).used ∧ (st1.span x.s).lsize = (st.span x.s).lsize := by
        unfold unfull at hun
        dsimp only at hun
        split at hun
        · rename_i hf
          split at hun
          · simp at hun
          · simp only [Option.some.injEq] at hun
            subst hun
            dsimp only
            rw [upd_same]
            unfold isFull at hf
            simp only [Bool.and_eq_true, List.isEmpty_iff, decide_eq_true_eq] at hf
            rw [hf.1, List.length_nil] at l2
            exact ⟨by dsimp only; omega, rfl⟩
        · simp only [Option.some.injEq] at hun
          subst hun
          exact ⟨rfl, rfl⟩
      unfold putBack at e
      dsimp only at e
      rw [hsp.1, hsp.2, if_neg (by omega), if_pos (by omega)] at e
      split at e
      · simp only [Option.some.injEq] at e
        subst e
        exact List.mem_cons_self ..
      · simp at e
  · have h1 := (I.cacheOk s hs).2
    have h2 := (I.heldOk x hx).1
    rw [e, h1] at h2
    exact Bool.noConfusion h2

/-- Adopting leaves what is in the cache there, and puts every deferred span there. -/
theorem adoptLoop_cache {h : Nat} : ∀ (L : List Nat) {st st' : St}, adoptLoop h L st = some st' →
    ∀ s, s ∈ st.cache ∨ s ∈ L → s ∈ st'.cache := by
  intro L
  induction L with
  | nil =>
    intro st st' e s hs
    rw [adoptLoop] at e
    simp only [Option.some.injEq] at e
    subst e
    rcases hs with hs | hs
    · exact hs
    · simp at hs
  | cons t rest ih =>
    intro st st' e s hs
    rw [adoptLoop] at e
    split at e
    · simp at e
    · refine ih e s ?_
      rcases hs with hs | hs
      · exact Or.inl (List.mem_cons_of_mem _ hs)
      · rcases List.mem_cons.mp hs with rfl | hs
        · exact Or.inl (List.mem_cons_self ..)
        · exact Or.inr hs

/-- Claim C135 (spans freed by others): a span all of whose blocks were freed by other threads is kept for other uses as soon as
its heap collects the deferred spans. -/
theorem deferred_span_collected {c : Cfg} (ok : c.Ok) {st : St} {held : List Held} (h : Reach c st held) (s : Nat)
    (ha : (st.span s).act = true) (hall : ∀ i, i < c.count (st.span s).bin → i ∈ (st.span s).dfl) :
    ∃ st', step c st (.adopt (c.heap (st.span s).bin)) = some (st', none) ∧ s ∈ st'.cache := by
  have I := reach_inv ok h
  obtain ⟨l1, l2, l3⟩ := I.lim s ha
  obtain ⟨h4, _⟩ := I.lists ha
  rw [List.length_append] at h4
  have hls : (st.span s).lsize = c.count (st.span s).bin := by
    have : (List.range (c.count (st.span s).bin)).Subperm (st.span s).dfl :=
      List.subperm_of_subset List.nodup_range fun i hi => hall i (List.mem_range.mp hi)
    have := this.length_le
    rw [List.length_range] at this
    omega
  have hmem := ((I.sfd (c.heap (st.span s).bin)).2 s).mpr ⟨ha, rfl, hls⟩
  obtain ⟨st', e, _⟩ := adopt_inv ok.pos (st.sfd (c.heap (st.span s).bin)) rfl I
  exact ⟨st', by rw [step, adopt, e]; rfl, adoptLoop_cache _ e s (Or.inr hmem)⟩

/-- What C135 leaves out: a block of a fully used span which another thread frees is not reused while other blocks of the span
are held and the owner frees none of them.  If the bin is used up, the next request needs a new span. -/
theorem deferred_block_not_reused {c : Cfg} {st : St} {b s i : Nat} (hf : st.free b = []) (hp : st.part b = []) :
    step c (freeDefer c st s i) (.malloc b .fail) = some (freeDefer c st s i, none) := by
  have h1 : (freeDefer c st s i).free = st.free := by unfold freeDefer; dsimp only; split <;> rfl
  have h2 : (freeDefer c st s i).part = st.part := by unfold freeDefer; dsimp only; split <;> rfl
  rw [step]
  unfold malloc
  simp only [h1, h2, hf, hp, pick]

/-- Bins of the largest class of blocks: two in a span. -/
def twoCfg : Cfg := ⟨12, fun _ => 32256, fun _ => 2, fun _ => 0, fun s => 65536 * (s + 1)⟩

theorem twoCfg_ok : twoCfg.Ok := ⟨fun _ => (by decide : Fits 32256 2), fun s => ⟨s + 1, rfl⟩, fun s s' h => by
  unfold twoCfg at h; dsimp only at h; omega⟩

/-- Run a list of operations and collect the blocks handed out. -/
def runOps (c : Cfg) : List Op → St → Option (St × List (Nat × Nat))
  | [], st => some (st, [])
  | op :: ops, st => match step c st op with
    | none => none
    | some (st, r) => (runOps c ops st).map fun x => (x.1, r.toList ++ x.2)

/-- Two blocks of one span, a third from another; the first is freed by another thread and not reused: the fourth request gets
the second block of the second span, the fifth needs a third span.  Then the second block is freed by the owner: both free
blocks of the first span are collected and the span is kept. -/
example : (runOps twoCfg [.malloc 0 (.fresh 7), .malloc 0 .fail, .malloc 0 (.fresh 4), .freeDefer 7 0, .malloc 0 .fail,
    .malloc 0 .fail] .init).map (·.2) = some [(7, 0), (7, 1), (4, 0), (4, 1)] ∧
    (runOps twoCfg [.malloc 0 (.fresh 7), .malloc 0 .fail, .malloc 0 (.fresh 4), .freeDefer 7 0, .malloc 0 .fail,
      .freeDirect 7 1, .malloc 0 (.cached 0)] .init).map (·.2) = some [(7, 0), (7, 1), (4, 0), (4, 1), (7, 0)] := by
  decide +kernel

/-- Blocks of 16 bytes, 4088 in a span: a page of them is set up at a time. -/
def smallCfg : Cfg := ⟨12, fun _ => 16, fun _ => 4088, fun _ => 0, fun s => 65536 * (s + 1)⟩

/-- After the first request 247 blocks of the first page are in the free list; a block freed by the owner waits in the span. -/
example : (runOps smallCfg [.malloc 0 (.fresh 3), .malloc 0 .fail, .freeDirect 3 0] .init).map
    (fun x => (x.2, (x.1.free 0).length, (x.1.span 3).fl, (x.1.span 3).limit, x.1.part 0)) =
    some ([(3, 0), (3, 1)], 246, [0], 248, [3]) := by
  decide +kernel

end Verif.Rp
