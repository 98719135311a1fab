import Mathlib.Data.List.Basic
import Mathlib.Data.List.Nodup
import Mathlib.Logic.Function.Basic
import Mathlib.Tactic.ByContra
import Verif.Basic

/-!
# Giving back the heaps when the allocator ends (`src/rpmalloc.c` 1590-1648, 1834-1846, 1895-1913, 2857-2868), C201

Heaps are made in groups: the first of a group, its *leader* (`master_heap`), counts the others (`child_count`), and the memory of all of
them is one span.  All heaps are in lists, by their number.  A heap is a number here; whether it is *empty* (no block of it is in use
any more, 1619-1635) is told by an oracle.
-/

namespace Verif.Rp.Finalize

/-- The heaps: the list of each slot, in order; the slot of each, its leader, and the others of the group of a leader. -/
structure Cfg where
  heaps : Nat → List Nat
  slot : Nat → Nat
  leader : Nat → Nat
  kids : Nat → List Nat

/-- `_memory_heaps`, and of each heap `finalize` and `child_count`; the groups whose memory is mapped, and the groups unmapped. -/
structure St where
  lists : Nat → List Nat
  fin : Nat → Nat
  cnt : Nat → Nat
  live : Nat → Bool
  log : List Nat

/-- `_rpmalloc_heap_unmap` of a leader, src/rpmalloc.c:1591-1595. -/
def unmapLeader (g : Nat) (s : St) : Res St :=
  if s.live g = false then .ub
  else if 1 < s.fin g ∧ s.cnt g = 0 then .ok { s with live := Function.update s.live g false, log := g :: s.log }
  else .ok s

/-- `_rpmalloc_heap_unmap`, src/rpmalloc.c:1590-1601. -/
def unmap (c : Cfg) (h : Nat) (s : St) : Res St :=
  if c.leader h = h then unmapLeader h s
  else if s.live (c.leader h) = false then .ub
  else
    let s' := { s with cnt := Function.update s.cnt (c.leader h) (s.cnt (c.leader h) - 1) }
    if s'.cnt (c.leader h) = 0 then unmapLeader (c.leader h) s' else .ok s'

/-- Looking for the link to a heap, src/rpmalloc.c:1638-1645: every heap before it is read; a null pointer is followed if it is not there. -/
def seek (c : Cfg) (live : Nat → Bool) (h : Nat) : List Nat → Res Unit
  | [] => .ub
  | x :: t => if x = h then .ok () else if live (c.leader x) = false then .ub else seek c live h t

/-- `_rpmalloc_heap_global_finalize`, src/rpmalloc.c:1603-1648; `empty` is what is found at 1624-1635 after the caches have been given back.
(The call of itself through `_rpmalloc_heap_cache_insert` at 1609 finds `finalize` above 1 and returns.) -/
def globalFinalize (c : Cfg) (h : Nat) (empty : Bool) (s : St) : Res St :=
  if s.live (c.leader h) = false then .ub
  else if 1 < s.fin h then .ok s
  else if empty = false then .ok s
  else
    match seek c s.live h (s.lists (c.slot h)) with
    | .ub => .ub
    | .ok _ =>
      unmap c h { s with
        fin := Function.update s.fin h (s.fin h + 1)
        lists := Function.update s.lists (c.slot h) ((s.lists (c.slot h)).erase h) }

/-- `heap->next_heap`. -/
def nextOf (l : List Nat) (h : Nat) : Option Nat := (l.dropWhile (· ≠ h)).tail.head?

/-- The loop over one list, src/rpmalloc.c:2861-2867. -/
def walk (c : Cfg) (empty : Nat → Bool) (i : Nat) : Nat → Option Nat → St → Res St
  | _, none, s => .ok s
  | 0, some _, _ => .ub
  | n + 1, some h, s =>
    if s.live (c.leader h) = false then .ub
    else
      match globalFinalize c h (empty h) { s with fin := Function.update s.fin h 1 } with
      | .ub => .ub
      | .ok s' => walk c empty i n (nextOf (s.lists i) h) s'

/-- The loop over the lists, src/rpmalloc.c:2860-2868 (`HEAP_ARRAY_SIZE` is 47). -/
def finalizeFrom (c : Cfg) (empty : Nat → Bool) : List Nat → St → Res St
  | [], s => .ok s
  | i :: t, s =>
    match walk c empty i (s.lists i).length (s.lists i).head? s with
    | .ub => .ub
    | .ok s' => finalizeFrom c empty t s'

def finalizeAll (c : Cfg) (empty : Nat → Bool) (s : St) : Res St := finalizeFrom c empty (List.range 47) s

/-- Later a large block is freed, src/rpmalloc.c:1653-1658. -/
def late (c : Cfg) (s : St) (e : Nat × Bool) : Res St := globalFinalize c e.1 e.2 s

def lates (c : Cfg) : List (Nat × Bool) → St → Res St
  | [], s => .ok s
  | e :: t, s =>
    match late c s e with
    | .ub => .ub
    | .ok s' => lates c t s'

/-! ## Groups of heaps -/

/-- The lists and groups as `_rpmalloc_heap_allocate_new` makes them (1895-1913, 1834-1846). -/
structure Cfg.Ok (c : Cfg) : Prop where
  slots : ∀ i, ∀ h ∈ c.heaps i, c.slot h = i ∧ i < 47
  nodup : ∀ i, (c.heaps i).Nodup
  lead : ∀ i, ∀ h ∈ c.heaps i, c.leader h ∈ c.heaps (c.slot (c.leader h)) ∧ c.leader (c.leader h) = c.leader h
  kids : ∀ g h, h ∈ c.kids g ↔ h ∈ c.heaps (c.slot h) ∧ c.leader h = g ∧ h ≠ g
  kidsNodup : ∀ g, (c.kids g).Nodup

/-- There is such a heap. -/
def Cfg.IsHeap (c : Cfg) (h : Nat) : Prop := h ∈ c.heaps (c.slot h)

instance (c : Cfg) (h : Nat) : Decidable (c.IsHeap h) := by unfold Cfg.IsHeap; infer_instance

/-- Before the end. -/
def start (c : Cfg) : St where
  lists := c.heaps
  fin := fun _ => 0
  cnt := fun g => (c.kids g).length
  live := fun g => decide (g ∈ c.heaps (c.slot g) ∧ c.leader g = g)
  log := []

/-- All heaps of the group of `g` are among `D`. -/
def Gone (c : Cfg) (D : Nat → Bool) (g : Nat) : Prop := ∀ h, c.IsHeap h → c.leader h = g → D h = true

/-! ## Invariant -/

structure Inv (c : Cfg) (D : Nat → Bool) (s : St) : Prop where
  lists : ∀ i, s.lists i = (c.heaps i).filter fun h => !D h
  fin : ∀ h, c.IsHeap h → D h = true → s.fin h = 2
  fin' : ∀ h, c.IsHeap h → D h = false → s.fin h ≤ 1
  cnt : ∀ g, s.cnt g = ((c.kids g).filter fun h => !D h).length
  live : ∀ g, c.IsHeap g → c.leader g = g → (s.live g = false ↔ Gone c D g)
  log : ∀ g, g ∈ s.log ↔ c.IsHeap g ∧ c.leader g = g ∧ Gone c D g
  nodup : s.log.Nodup

/-- The part of the invariant that is not about the memory. -/
structure Pre (c : Cfg) (D : Nat → Bool) (s : St) : Prop where
  lists : ∀ i, s.lists i = (c.heaps i).filter fun h => !D h
  fin : ∀ h, c.IsHeap h → D h = true → s.fin h = 2
  fin' : ∀ h, c.IsHeap h → D h = false → s.fin h ≤ 1
  cnt : ∀ g, s.cnt g = ((c.kids g).filter fun h => !D h).length

/-- The test of a leader tells whether its group is gone. -/
theorem Pre.gone {c : Cfg} {D : Nat → Bool} {s : St} (hp : Pre c D s) (hc : c.Ok) {g : Nat} (hg : c.IsHeap g) (hl : c.leader g = g) :
    1 < s.fin g ∧ s.cnt g = 0 ↔ Gone c D g := by
  constructor
  · rintro ⟨h1, h2⟩ x hx hxl
    cases hxd : D x with
    | true => rfl
    | false =>
      by_cases hxg : x = g
      · subst hxg
        have := hp.fin' x hx hxd
        omega
      · rw [hp.cnt] at h2
        have : x ∈ (c.kids g).filter fun x => !D x := List.mem_filter.2 ⟨(hc.kids _ x).2 ⟨hx, hxl, hxg⟩, by simp [hxd]⟩
        rw [List.length_eq_zero_iff.1 h2] at this
        simp at this
  · intro h
    refine ⟨by rw [hp.fin g hg (h g hg hl)]; decide, ?_⟩
    rw [hp.cnt, List.length_eq_zero_iff, List.filter_eq_nil_iff]
    intro x hx
    obtain ⟨h1, h2, _⟩ := (hc.kids g x).1 hx
    simp [h x h1 h2]

theorem start_inv (c : Cfg) : Inv c (fun _ => false) (start c) := by
  refine ⟨fun i => by simp [start], fun _ _ h => by simp at h, fun _ _ _ => by simp [start], fun g => by simp [start], fun g hg hl => ?_, fun g => ?_, List.nodup_nil⟩
  · simp only [start, decide_eq_false_iff_not]
    constructor
    · intro h; exact absurd ⟨hg, hl⟩ h
    · intro h; have := h g hg hl; simp at this
  · constructor
    · intro h; simp [start] at h
    · rintro ⟨h1, h2, h3⟩
      have := h3 g h1 h2
      simp at this

theorem seek_ok {c : Cfg} {live : Nat → Bool} {h : Nat} : ∀ {l : List Nat}, h ∈ l → (∀ x ∈ l, live (c.leader x) = true) → seek c live h l = .ok () := by
  intro l
  induction l with
  | nil => intro hm; simp at hm
  | cons x t ih =>
    intro hm hl
    rw [seek]
    split
    · rfl
    · next hx =>
      rw [if_neg (by rw [hl x (by simp)]; decide)]
      exact ih ((List.mem_cons.1 hm).resolve_left (fun h => hx h.symm)) (fun y hy => hl y (by simp [hy]))

theorem leader_live {c : Cfg} (hc : c.Ok) {D : Nat → Bool} {s : St} (hi : Inv c D s) {h : Nat} (hh : c.IsHeap h) (hd : D h = false) :
    s.live (c.leader h) = true := by
  have hl := hc.lead _ h hh
  cases hv : s.live (c.leader h) with
  | true => rfl
  | false =>
    have := ((hi.live _ hl.1 hl.2).1 hv) h hh rfl
    rw [hd] at this
    cases this

/-- The state of the fields other than `fin` when a heap goes. -/
theorem filter_update {D : Nat → Bool} {h : Nat} (l : List Nat) (hn : l.Nodup) :
    (l.filter fun x => !(Function.update D h true x)) = (l.filter fun x => !D x).erase h := by
  rw [List.Nodup.erase_eq_filter (hn.filter _), List.filter_filter]
  refine List.filter_congr fun x _ => ?_
  by_cases hx : x = h
  · subst hx; simp
  · simp [hx]

theorem gf_inv {c : Cfg} (hc : c.Ok) {D : Nat → Bool} {s : St} (hi : Inv c D s) {h : Nat} (hh : c.IsHeap h) (hd : D h = false)
    (hf : s.fin h = 1) (empty : Bool) :
    ∃ s', globalFinalize c h empty s = .ok s' ∧ Inv c (if empty then Function.update D h true else D) s' ∧
      (∀ x, x ≠ h → s'.fin x = s.fin x) ∧ (empty = false → s'.fin h = 1) := by
  have hlive := leader_live hc hi hh hd
  obtain ⟨hlh, hll⟩ := hc.lead _ h hh
  unfold globalFinalize
  rw [if_neg (by rw [hlive]; decide), if_neg (by omega)]
  cases empty with
  | false => exact ⟨s, by simp, by simpa using hi, fun _ _ => rfl, fun _ => hf⟩
  | true =>
    rw [if_neg (by decide)]
    have hmem : h ∈ s.lists (c.slot h) := by
      rw [hi.lists]
      exact List.mem_filter.2 ⟨hh, by simp [hd]⟩
    rw [seek_ok hmem (fun x hx => by
      rw [hi.lists] at hx
      obtain ⟨h1, h2⟩ := List.mem_filter.1 hx
      have hs := (hc.slots _ x h1).1
      exact leader_live hc hi (by unfold Cfg.IsHeap; rw [hs]; exact h1) (by simpa using h2))]
    dsimp only
    rw [hf, if_pos rfl]
    -- what holds in any case
    have hlists : ∀ i, Function.update s.lists (c.slot h) ((s.lists (c.slot h)).erase h) i =
        (c.heaps i).filter fun x => !(Function.update D h true x) := by
      intro i
      rw [filter_update _ (hc.nodup i)]
      by_cases hs : i = c.slot h
      · subst hs; rw [Function.update_self, hi.lists]
      · rw [Function.update_of_ne hs, hi.lists, List.erase_of_not_mem]
        intro hm
        exact hs (hc.slots i h (List.mem_filter.1 hm).1).1.symm
    have hfin : ∀ x, c.IsHeap x → Function.update D h true x = true → Function.update s.fin h 2 x = 2 := by
      intro x hx hdx
      by_cases hxh : x = h
      · subst hxh; rw [Function.update_self]
      · rw [Function.update_of_ne hxh] at hdx ⊢
        exact hi.fin x hx hdx
    have hfin' : ∀ x, c.IsHeap x → Function.update D h true x = false → Function.update s.fin h 2 x ≤ 1 := by
      intro x hx hdx
      by_cases hxh : x = h
      · subst hxh; rw [Function.update_self] at hdx; cases hdx
      · rw [Function.update_of_ne hxh] at hdx ⊢
        exact hi.fin' x hx hdx
    have hgone : ∀ g, c.IsHeap g → c.leader g = g → g ≠ c.leader h → (Gone c (Function.update D h true) g ↔ Gone c D g) := by
      intro g hg hgl hne
      have : ∀ x, c.IsHeap x → c.leader x = g → Function.update D h true x = D x := by
        intro x _ hx
        rw [Function.update_of_ne]
        rintro rfl
        exact hne hx.symm
      exact ⟨fun H x h1 h2 => by rw [← this x h1 h2]; exact H x h1 h2, fun H x h1 h2 => by rw [this x h1 h2]; exact H x h1 h2⟩
    have hnotgone : ¬ Gone c D (c.leader h) := fun H => by
      have := H h hh rfl
      rw [hd] at this
      cases this
    have hgone' : ∀ {s1 : St}, Pre c (Function.update D h true) s1 → s1.live = s.live → s1.log = s.log →
        (Gone c (Function.update D h true) (c.leader h) →
          Inv c (Function.update D h true) { s1 with live := Function.update s1.live (c.leader h) false, log := c.leader h :: s1.log }) ∧
        (¬ Gone c (Function.update D h true) (c.leader h) → Inv c (Function.update D h true) s1) := by
      intro s1 ⟨p1, p2, p3, p4⟩ e1 e2
      refine ⟨fun hG => ⟨p1, p2, p3, p4, fun g hg hgl => ?_, fun g => ?_, ?_⟩, fun hG => ⟨p1, p2, p3, p4, fun g hg hgl => ?_, fun g => ?_, ?_⟩⟩
      · show Function.update s1.live (c.leader h) false g = false ↔ _
        by_cases hgh : g = c.leader h
        · subst hgh; rw [Function.update_self]; exact ⟨fun _ => hG, fun _ => rfl⟩
        · rw [Function.update_of_ne hgh, e1, hgone g hg hgl hgh]
          exact hi.live g hg hgl
      · show g ∈ c.leader h :: s1.log ↔ _
        rw [List.mem_cons, e2, hi.log]
        by_cases hgh : g = c.leader h
        · subst hgh; exact ⟨fun _ => ⟨hlh, hll, hG⟩, fun _ => Or.inl rfl⟩
        · constructor
          · rintro (h1 | ⟨h1, h2, h3⟩)
            · exact absurd h1 hgh
            · exact ⟨h1, h2, (hgone g h1 h2 hgh).2 h3⟩
          · rintro ⟨h1, h2, h3⟩
            exact Or.inr ⟨h1, h2, (hgone g h1 h2 hgh).1 h3⟩
      · show (c.leader h :: s1.log).Nodup
        rw [e2]
        exact List.nodup_cons.2 ⟨fun hm => hnotgone ((hi.log _).1 hm).2.2, hi.nodup⟩
      · by_cases hgh : g = c.leader h
        · subst hgh
          rw [e1, hlive]
          exact ⟨fun h => by simp at h, fun h => absurd h hG⟩
        · rw [e1, hgone g hg hgl hgh]
          exact hi.live g hg hgl
      · rw [e2, hi.log]
        by_cases hgh : g = c.leader h
        · subst hgh; exact ⟨fun h => absurd h.2.2 hnotgone, fun h => absurd h.2.2 hG⟩
        · constructor
          · rintro ⟨h1, h2, h3⟩
            exact ⟨h1, h2, (hgone g h1 h2 hgh).2 h3⟩
          · rintro ⟨h1, h2, h3⟩
            exact ⟨h1, h2, (hgone g h1 h2 hgh).1 h3⟩
      · rw [e2]; exact hi.nodup
    have hkid : ∀ g, ((c.kids g).filter fun x => !(Function.update D h true x)).length =
        if g = c.leader h ∧ h ≠ g then ((c.kids g).filter fun x => !D x).length - 1 else ((c.kids g).filter fun x => !D x).length := by
      intro g
      rw [filter_update _ (hc.kidsNodup g)]
      by_cases hm : h ∈ c.kids g
      · have hm' := (hc.kids g h).1 hm
        rw [List.length_erase_of_mem (List.mem_filter.2 ⟨hm, by simp [hd]⟩), if_pos ⟨hm'.2.1.symm, hm'.2.2⟩]
      · rw [List.erase_of_not_mem (fun h1 => hm (List.mem_filter.1 h1).1), if_neg]
        rintro ⟨rfl, h2⟩
        exact hm ((hc.kids _ h).2 ⟨hh, rfl, h2⟩)
    have hfinx : ∀ x, x ≠ h → Function.update s.fin h 2 x = s.fin x := fun x hx => Function.update_of_ne hx _ _
    unfold unmap
    split
    · next hlead =>
      have hpre : Pre c (Function.update D h true) { s with
          fin := Function.update s.fin h (1 + 1)
          lists := Function.update s.lists (c.slot h) ((s.lists (c.slot h)).erase h) } := by
        refine ⟨hlists, hfin, hfin', fun g => ?_⟩
        show s.cnt g = _
        rw [hkid g, hi.cnt, if_neg]
        rintro ⟨rfl, h2⟩
        exact h2 hlead.symm
      have hiff := hpre.gone hc hlh hll
      rw [hlead] at hiff hgone' hlive
      unfold unmapLeader
      rw [if_neg (by show s.live h ≠ false; rw [hlive]; decide)]
      split
      · next hz => exact ⟨_, rfl, (hgone' hpre rfl rfl).1 (hiff.1 hz), hfinx, fun h => by simp at h⟩
      · next hz => exact ⟨_, rfl, (hgone' hpre rfl rfl).2 (fun h => hz (hiff.2 h)), hfinx, fun h => by simp at h⟩
    · next hlead =>
      rw [if_neg (by show s.live _ ≠ false; rw [hlive]; decide)]
      have hpre : Pre c (Function.update D h true) { s with
          fin := Function.update s.fin h (1 + 1)
          lists := Function.update s.lists (c.slot h) ((s.lists (c.slot h)).erase h)
          cnt := Function.update s.cnt (c.leader h) (s.cnt (c.leader h) - 1) } := by
        refine ⟨hlists, hfin, hfin', fun g => ?_⟩
        show Function.update s.cnt (c.leader h) (s.cnt (c.leader h) - 1) g = _
        rw [hkid g]
        by_cases hg : g = c.leader h
        · subst hg
          rw [Function.update_self, if_pos ⟨rfl, fun h => hlead h.symm⟩, hi.cnt]
        · rw [Function.update_of_ne hg, if_neg (fun h => hg h.1), hi.cnt]
      have hiff := hpre.gone hc hlh hll
      dsimp only
      split
      · next hz0 =>
        unfold unmapLeader
        rw [if_neg (by show s.live _ ≠ false; rw [hlive]; decide)]
        split
        · next hz => exact ⟨_, rfl, (hgone' hpre rfl rfl).1 (hiff.1 hz), hfinx, fun h => by simp at h⟩
        · next hz => exact ⟨_, rfl, (hgone' hpre rfl rfl).2 (fun h => hz (hiff.2 h)), hfinx, fun h => by simp at h⟩
      · next hz0 => exact ⟨_, rfl, (hgone' hpre rfl rfl).2 (fun h => hz0 (hiff.2 h).2), hfinx, fun h => by simp at h⟩

/-! ## The loops -/

theorem set_fin {c : Cfg} {D : Nat → Bool} {s : St} (hi : Inv c D s) {h : Nat} (hd : D h = false) :
    Inv c D { s with fin := Function.update s.fin h 1 } := by
  refine ⟨hi.lists, fun x hx hdx => ?_, fun x hx hdx => ?_, hi.cnt, hi.live, hi.log, hi.nodup⟩
  · show Function.update s.fin h 1 x = 2
    rw [Function.update_of_ne]
    · exact hi.fin x hx hdx
    · rintro rfl; rw [hd] at hdx; cases hdx
  · show Function.update s.fin h 1 x ≤ 1
    by_cases hxh : x = h
    · subst hxh; rw [Function.update_self]; exact Nat.le_refl 1
    · rw [Function.update_of_ne hxh]; exact hi.fin' x hx hdx

theorem nextOf_mid {a b : List Nat} {h : Nat} (hn : h ∉ a) : nextOf (a ++ h :: b) h = b.head? := by
  unfold nextOf
  rw [List.dropWhile_append_of_pos (fun x hx => by
    have : x ≠ h := by rintro rfl; exact hn hx
    simpa using this)]
  simp

/-- The heaps of `b` which are empty are gone as well. -/
def withEmpty (D empty : Nat → Bool) (b : List Nat) : Nat → Bool := fun x => D x || (decide (x ∈ b) && empty x)

theorem walk_inv {c : Cfg} (hc : c.Ok) {empty : Nat → Bool} {i : Nat} : ∀ (b a : List Nat) (n : Nat) (D : Nat → Bool) (s : St), Inv c D s →
    s.lists i = a ++ b → b.length ≤ n →
    ∃ s', walk c empty i n b.head? s = .ok s' ∧ Inv c (withEmpty D empty b) s' ∧ (∀ x, x ∉ b → s'.fin x = s.fin x) ∧
      ∀ x ∈ b, empty x = false → s'.fin x = 1 := by
  intro b
  induction b with
  | nil =>
    intro a n D s hi _ _
    have e : withEmpty D empty [] = D := by funext x; simp [withEmpty]
    rw [e]
    exact ⟨s, by simp [walk], hi, fun _ _ => rfl, fun x hx => by simp at hx⟩
  | cons h b ih =>
    intro a n D s hi hl hn
    cases n with
    | zero => simp at hn
    | succ n =>
      have hm : h ∈ s.lists i := by rw [hl]; simp
      have hnd : (s.lists i).Nodup := by rw [hi.lists]; exact (hc.nodup i).filter _
      rw [hi.lists] at hm
      obtain ⟨hm1, hm2⟩ := List.mem_filter.1 hm
      have hs := (hc.slots i h hm1).1
      have hh : c.IsHeap h := by unfold Cfg.IsHeap; rw [hs]; exact hm1
      have hd : D h = false := by simpa using hm2
      rw [hl] at hnd
      have hna : h ∉ a := fun h1 => by
        have := List.disjoint_of_nodup_append hnd h1
        simp at this
      have hnb : h ∉ b := (List.nodup_cons.1 (List.nodup_append.1 hnd).2.1).1
      obtain ⟨s', e, hi', hf1, hf2⟩ := gf_inv hc (set_fin hi hd) hh hd (by simp) (empty h)
      have hlist : ∃ a', s'.lists i = a' ++ b := by
        rw [hi'.lists]
        cases empty h with
        | false =>
          rw [if_neg (by decide), ← hi.lists, hl]
          exact ⟨a ++ [h], by simp⟩
        | true =>
          rw [if_pos rfl, filter_update _ (hc.nodup i), ← hi.lists, hl, List.erase_append_right _ hna, List.erase_cons_head]
          exact ⟨a, rfl⟩
      obtain ⟨a', ha'⟩ := hlist
      obtain ⟨s'', e', hi'', hg1, hg2⟩ := ih a' n _ s' hi' ha' (by simpa using hn)
      refine ⟨s'', ?_, ?_, fun x hx => ?_, fun x hx hxe => ?_⟩
      · rw [List.head?_cons, walk, if_neg (by rw [leader_live hc hi hh hd]; decide), e]
        dsimp only
        rw [hl, nextOf_mid hna]
        exact e'
      · have : withEmpty (if empty h = true then Function.update D h true else D) empty b = withEmpty D empty (h :: b) := by
          funext x
          unfold withEmpty
          by_cases hxh : x = h
          · subst hxh
            cases he : empty x <;> simp [hnb]
          · have : (if empty h = true then Function.update D h true else D) x = D x := by
              split
              · exact Function.update_of_ne hxh _ _
              · rfl
            rw [this]
            simp [hxh]
        rw [← this]
        exact hi''
      · rw [List.mem_cons, not_or] at hx
        rw [hg1 x hx.2, hf1 x hx.1]
        exact Function.update_of_ne hx.1 _ _
      · rcases List.mem_cons.1 hx with rfl | hx
        · rw [hg1 x hnb]
          exact hf2 hxe
        · exact hg2 x hx hxe

theorem from_inv {c : Cfg} (hc : c.Ok) {empty : Nat → Bool} : ∀ (l : List Nat) (D : Nat → Bool) (s : St), l.Nodup → Inv c D s →
    (∀ i ∈ l, ∀ h ∈ c.heaps i, D h = false) →
    ∃ s', finalizeFrom c empty l s = .ok s' ∧ Inv c (fun x => D x || (decide (c.slot x ∈ l ∧ x ∈ c.heaps (c.slot x)) && empty x)) s' ∧
      (∀ x, c.slot x ∉ l → s'.fin x = s.fin x) ∧ ∀ x, c.slot x ∈ l → c.IsHeap x → empty x = false → s'.fin x = 1 := by
  intro l
  induction l with
  | nil =>
    intro D s _ hi _
    have e : (fun x => D x || (decide (c.slot x ∈ [] ∧ x ∈ c.heaps (c.slot x)) && empty x)) = D := by funext x; simp
    rw [e]
    exact ⟨s, rfl, hi, fun _ _ => rfl, fun x hx => by simp at hx⟩
  | cons i t ih =>
    intro D s hn hi hD
    obtain ⟨hit, hn⟩ := List.nodup_cons.1 hn
    obtain ⟨s', e, hi', hf1, hf2⟩ := walk_inv (empty := empty) (i := i) hc (s.lists i) [] _ D s hi (by simp) (Nat.le_refl _)
    have hlist : s.lists i = c.heaps i := by
      rw [hi.lists, List.filter_eq_self]
      intro x hx
      simp [hD i (by simp) x hx]
    have hD' : ∀ j ∈ t, ∀ h ∈ c.heaps j, withEmpty D empty (s.lists i) h = false := by
      intro j hj h hh
      unfold withEmpty
      rw [hD j (by simp [hj]) h hh, hlist]
      have : h ∉ c.heaps i := fun h1 => by
        have h2 := (hc.slots i h h1).1
        have h3 := (hc.slots j h hh).1
        exact hit (by rw [← h2, h3]; exact hj)
      simp [this]
    obtain ⟨s'', e', hi'', hg1, hg2⟩ := ih _ s' hn hi' hD'
    refine ⟨s'', ?_, ?_, fun x hx => ?_, fun x hx hxh hxe => ?_⟩
    · rw [finalizeFrom, e]
      exact e'
    · have : (fun x => withEmpty D empty (s.lists i) x || (decide (c.slot x ∈ t ∧ x ∈ c.heaps (c.slot x)) && empty x)) =
          fun x => D x || (decide (c.slot x ∈ i :: t ∧ x ∈ c.heaps (c.slot x)) && empty x) := by
        funext x
        unfold withEmpty
        rw [hlist]
        have : x ∈ c.heaps i ↔ c.slot x = i ∧ x ∈ c.heaps (c.slot x) :=
          ⟨fun h => ⟨(hc.slots i x h).1, by rw [(hc.slots i x h).1]; exact h⟩, fun ⟨h1, h2⟩ => by rw [← h1]; exact h2⟩
        rw [decide_eq_decide.2 this]
        cases D x <;> cases empty x <;> simp only [Bool.and_false, Bool.or_false, Bool.and_true, Bool.true_or, Bool.false_or]
        rw [← Bool.decide_or, decide_eq_decide, List.mem_cons]
        constructor
        · rintro (⟨h1, h2⟩ | ⟨h1, h2⟩)
          · exact ⟨Or.inl h1, h2⟩
          · exact ⟨Or.inr h1, h2⟩
        · rintro ⟨h1 | h1, h2⟩
          · exact Or.inl ⟨h1, h2⟩
          · exact Or.inr ⟨h1, h2⟩
      rw [← this]
      exact hi''
    · rw [List.mem_cons, not_or] at hx
      rw [hg1 x hx.2, hf1 x]
      intro h1
      rw [hlist] at h1
      exact hx.1 (hc.slots i x h1).1
    · rcases List.mem_cons.1 hx with h1 | h1
      · rw [hg1 x (by rw [h1]; exact hit)]
        refine hf2 x ?_ hxe
        rw [hlist, ← h1]
        exact hxh
      · exact hg2 x h1 hxh hxe

/-! ## Claims -/

/-- The heaps that were found empty: at the end of the allocator, or when a block was freed later. -/
def emptied (c : Cfg) (empty : Nat → Bool) (l : List (Nat × Bool)) : Nat → Bool :=
  fun x => (decide (c.IsHeap x) && empty x) || decide ((x, true) ∈ l)

/-- Blocks are freed later only in heaps which were not empty before. -/
def Later (c : Cfg) (empty : Nat → Bool) : List (Nat × Bool) → List (Nat × Bool) → Prop
  | _, [] => True
  | l, e :: t => c.IsHeap e.1 ∧ emptied c empty l e.1 = false ∧ Later c empty (l ++ [e]) t

theorem all_inv {c : Cfg} (hc : c.Ok) (empty : Nat → Bool) :
    ∃ s, finalizeAll c empty (start c) = .ok s ∧ Inv c (emptied c empty []) s ∧ ∀ x, c.IsHeap x → emptied c empty [] x = false → s.fin x = 1 := by
  obtain ⟨s, e, hi, _, hf⟩ := from_inv (empty := empty) hc (List.range 47) (fun _ => false) (start c) List.nodup_range (start_inv c) (fun _ _ _ _ => rfl)
  have heq : (fun x => false || (decide (c.slot x ∈ List.range 47 ∧ x ∈ c.heaps (c.slot x)) && empty x)) = emptied c empty [] := by
    funext x
    unfold emptied
    have : (c.slot x ∈ List.range 47 ∧ x ∈ c.heaps (c.slot x)) ↔ c.IsHeap x :=
      ⟨fun h => h.2, fun h => ⟨List.mem_range.2 (hc.slots _ x h).2, h⟩⟩
    have h2 : decide (c.slot x ∈ List.range 47 ∧ x ∈ c.heaps (c.slot x)) = decide (c.IsHeap x) := decide_eq_decide.2 this
    rw [h2]
    simp
  rw [heq] at hi
  refine ⟨s, e, hi, fun x hx hxe => hf x (List.mem_range.2 (hc.slots _ x hx).2) hx ?_⟩
  unfold emptied at hxe
  simpa [hx] using hxe

theorem lates_inv {c : Cfg} (hc : c.Ok) {empty : Nat → Bool} : ∀ (t l : List (Nat × Bool)) (s : St), Inv c (emptied c empty l) s →
    (∀ x, c.IsHeap x → emptied c empty l x = false → s.fin x = 1) → Later c empty l t →
    ∃ s', lates c t s = .ok s' ∧ Inv c (emptied c empty (l ++ t)) s' := by
  intro t
  induction t with
  | nil => intro l s hi _ _; exact ⟨s, rfl, by simpa using hi⟩
  | cons e t ih =>
    intro l s hi hf ⟨h1, h2, h3⟩
    obtain ⟨h, em⟩ := e
    obtain ⟨s', e1, hi', hf1, hf2⟩ := gf_inv hc hi h1 h2 (hf h h1 h2) em
    have heq : (if em = true then Function.update (emptied c empty l) h true else emptied c empty l) = emptied c empty (l ++ [(h, em)]) := by
      funext x
      unfold emptied
      cases em with
      | false => simp
      | true =>
        rw [if_pos rfl]
        by_cases hx : x = h
        · subst hx; simp
        · rw [Function.update_of_ne hx]; simp [hx]
    rw [heq] at hi'
    obtain ⟨s'', e2, hi''⟩ := ih _ s' hi' (fun x hx hxe => by
      by_cases hxh : x = h
      · subst hxh
        refine hf2 ?_
        cases em with
        | false => rfl
        | true => simp [emptied] at hxe
      · rw [hf1 x hxh]
        refine hf x hx ?_
        unfold emptied at hxe ⊢
        simp only [Bool.or_eq_false_iff, decide_eq_false_iff_not, List.mem_append, not_or] at hxe ⊢
        exact ⟨hxe.1, hxe.2.1⟩) h3
    refine ⟨s'', ?_, by simpa using hi''⟩
    rw [lates, late, e1]
    exact e2

/-- The end of the allocator, with any heaps in any lists and groups, any of them empty, and any blocks freed later: no heap is accessed
whose memory was given back; the memory of a group is given back exactly if all its heaps have become empty, and once. -/
theorem heaps_given_back_partial {c : Cfg} (hc : c.Ok) (empty : Nat → Bool) (t : List (Nat × Bool)) (ht : Later c empty [] t) :
    ∃ s s', finalizeAll c empty (start c) = .ok s ∧ lates c t s = .ok s' ∧ s'.log.Nodup ∧
      ∀ g, g ∈ s'.log ↔ c.IsHeap g ∧ c.leader g = g ∧ ∀ h, c.IsHeap h → c.leader h = g → empty h = true ∨ (h, true) ∈ t := by
  obtain ⟨s, e, hi, hf⟩ := all_inv hc empty
  obtain ⟨s', e', hi'⟩ := lates_inv hc t [] s hi hf ht
  refine ⟨s, s', e, e', hi'.nodup, fun g => ?_⟩
  rw [hi'.log]
  refine and_congr_right fun _ => and_congr_right fun _ => forall_congr' fun h => ?_
  constructor
  · intro H h1 h2
    have := H h1 h2
    simpa [emptied, h1] using this
  · intro H h1 h2
    have := H h1 h2
    simpa [emptied, h1] using this

/-- If the allocator is started again in between (which clears the lists, src/rpmalloc.c:2832), freeing the last block of a heap of before
follows a null pointer. -/
theorem late_after_restart {c : Cfg} {s : St} {h : Nat} (hf : s.fin h ≤ 1) (hl : h ∉ s.lists (c.slot h)) : globalFinalize c h true s = .ub := by
  have hs : seek c s.live h (s.lists (c.slot h)) = .ub := by
    generalize s.lists (c.slot h) = l at hl
    induction l with
    | nil => rfl
    | cons x t ih =>
      rw [List.mem_cons, not_or] at hl
      rw [seek, if_neg (fun h => hl.1 h.symm)]
      split
      · rfl
      · exact ih hl.2
  unfold globalFinalize
  split
  · rfl
  · rw [if_neg (by omega), if_neg (by decide), hs]

/-- Two groups: 1 with 2 and 48 (in the list of 1), and 3 alone. -/
def demo : Cfg where
  heaps i := if i = 1 then [48, 1] else if i = 2 then [2] else if i = 3 then [3] else []
  slot h := h % 47
  leader h := if h = 3 then 3 else 1
  kids g := if g = 1 then [2, 48] else []

theorem demo_heaps {h i : Nat} (hh : h ∈ demo.heaps i) : h = 48 ∧ i = 1 ∨ h = 1 ∧ i = 1 ∨ h = 2 ∧ i = 2 ∨ h = 3 ∧ i = 3 := by
  simp only [demo] at hh
  split at hh
  · next h1 => subst h1; simp at hh; omega
  · split at hh
    · next h1 => subst h1; simp at hh; omega
    · split at hh
      · next h1 => subst h1; simp at hh; omega
      · simp at hh

theorem demo_ok : demo.Ok := by
  refine ⟨fun i h hh => ?_, fun i => ?_, fun i h hh => ?_, fun g h => ?_, fun g => ?_⟩
  · rcases demo_heaps hh with ⟨rfl, rfl⟩ | ⟨rfl, rfl⟩ | ⟨rfl, rfl⟩ | ⟨rfl, rfl⟩ <;> decide
  · simp only [demo]; split <;> [decide; (split <;> [decide; (split <;> decide)])]
  · rcases demo_heaps hh with ⟨rfl, rfl⟩ | ⟨rfl, rfl⟩ | ⟨rfl, rfl⟩ | ⟨rfl, rfl⟩ <;> decide
  · constructor
    · intro hk
      simp only [demo] at hk
      split at hk
      · next h1 => subst h1; simp at hk; rcases hk with rfl | rfl <;> decide
      · simp at hk
    · rintro ⟨h1, h2, h3⟩
      rcases demo_heaps h1 with ⟨rfl, _⟩ | ⟨rfl, _⟩ | ⟨rfl, _⟩ | ⟨rfl, _⟩
      · subst h2; decide
      · exact absurd h2 h3
      · subst h2; decide
      · exact absurd h2 h3
  · simp only [demo]; split <;> decide

/-- Heap 2 is not empty at first: only the group of 3 is given back; when the last block of 2 is freed, the other is. -/
example : ∃ s s', finalizeAll demo (fun h => decide (h ≠ 2)) (start demo) = .ok s ∧ s.log = [3] ∧
    lates demo [(2, false), (2, true)] s = .ok s' ∧ s'.log = [1, 3] := by
  refine ⟨_, _, rfl, ?_, rfl, ?_⟩ <;> decide

example : Later demo (fun h => decide (h ≠ 2)) [] [(2, false), (2, true)] := by
  refine ⟨by decide, by decide, by decide, by decide, trivial⟩

end Verif.Rp.Finalize
