import Mathlib.Data.List.Nodup

/-!
# The stack of spans freed by other threads (`src/rpmalloc.c` 1555-1589, 2354-2361), C141

Every heap has a linked list of spans which other threads have freed: any number of threads push with a compare-and-swap, and the
thread that works with the heap takes the whole list with one exchange and walks along it.  A collected span is soon in use again
and can be pushed again while others are between reading the head and the compare-and-swap (the ABA problem); the comment in the
source claims that this does no harm.  The model takes the operations apart into single accesses of the head; memory is sequentially
consistent.  Spans are the numbers 1 to `N`, 0 is the null pointer.
-/

namespace Verif.Rp.Stack

/-- A thread. -/
inductive Pc where
  /-- Pushes span `s` and is about to read the head, src/rpmalloc.c:2359. -/
  | p0 (s : Nat)
  /-- Has stored what it read in the span (which no other thread can reach) and tries to replace the head, 2360. -/
  | p1 (s : Nat)
  /-- Walks along a list it took, `cur` is next, 1557-1587. -/
  | c (cur : Nat)
  | fin
  deriving DecidableEq, Repr

/-- The head, the links (`free_list` of the spans), the spans in use, and the threads; the last two fields count, for each span,
how often it was freed and how often it was collected. -/
structure St where
  top : Nat
  next : Nat → Nat
  user : List Nat
  thr : List Pc
  freed : Nat → Nat
  got : Nat → Nat

/-- What happens: a thread frees span `s`; a thread takes the list; thread `i` goes on. -/
inductive Act where
  | push (s : Nat)
  | take
  | thr (i : Nat)
  deriving DecidableEq, Repr

/-- The outcome: not possible now; the link of a span is read that is in use for something else; a state. -/
inductive Out where
  | no
  | ub
  | ok (st : St)

def upd (f : Nat → Nat) (i v : Nat) : Nat → Nat := fun j => if j = i then v else f j

/-- One action, `_rpmalloc_deallocate_defer_free_span` (src/rpmalloc.c:2358-2360) and `_rpmalloc_heap_cache_adopt_deferred`
(1555-1589; what is done with a collected span is in `Verif/Rp/Cache.lean`, here it is in use again). -/
def step (st : St) : Act → Out
  | .push s => if s ∈ st.user then
      .ok { st with user := st.user.erase s, thr := st.thr ++ [.p0 s], freed := upd st.freed s (st.freed s + 1) } else .no
  | .take => .ok { st with top := 0, thr := st.thr ++ [.c st.top] }
  | .thr i => match st.thr[i]? with
    | none | some .fin => .no
    | some (.p0 s) => .ok { st with next := upd st.next s st.top, thr := st.thr.set i (.p1 s) }
    | some (.p1 s) =>
      if st.top = st.next s then .ok { st with top := s, thr := st.thr.set i .fin } else .ok { st with thr := st.thr.set i (.p0 s) }
    | some (.c cur) =>
      if cur = 0 then .ok { st with thr := st.thr.set i .fin }
      else if cur ∈ st.user then .ub
      else .ok { st with user := cur :: st.user, thr := st.thr.set i (.c (st.next cur)), got := upd st.got cur (st.got cur + 1) }

/-- At first all spans are in use. -/
def start (N : Nat) : St := ⟨0, fun _ => 0, List.range' 1 N, [], fun _ => 0, fun _ => 0⟩

/-- All interleavings. -/
inductive Reach (N : Nat) : St → Prop where
  | start : Reach N (start N)
  | step {st st' a} : Reach N st → step st a = .ok st' → Reach N st'

/-- The spans of a linked list. -/
inductive Chain (next : Nat → Nat) : Nat → List Nat → Prop where
  | nil : Chain next 0 []
  | cons {x l} : x ≠ 0 → Chain next (next x) l → Chain next x (x :: l)

/-- The spans with which a thread is concerned. -/
inductive Has (next : Nat → Nat) : Pc → List Nat → Prop where
  | p0 {s} : s ≠ 0 → Has next (.p0 s) [s]
  | p1 {s} : s ≠ 0 → Has next (.p1 s) [s]
  | c {cur l} : Chain next cur l → Has next (.c cur) l
  | fin : Has next .fin []

theorem Chain.upd {next : Nat → Nat} {s v : Nat} {x : Nat} {l : List Nat} (h : Chain next x l) (hs : s ∉ l) :
    Chain (upd next s v) x l := by
  induction h with
  | nil => exact .nil
  | @cons x l hx _ ih =>
    rw [List.mem_cons] at hs
    refine .cons hx ?_
    have : Stack.upd next s v x = next x := by
      unfold Stack.upd
      rw [if_neg (fun h => hs (Or.inl h.symm))]
    rw [this]
    exact ih (fun h => hs (Or.inr h))

theorem Has.upd {next : Nat → Nat} {s v : Nat} {p : Pc} {l : List Nat} (h : Has next p l) (hs : s ∉ l) : Has (upd next s v) p l := by
  cases h with
  | p0 h => exact .p0 h
  | p1 h => exact .p1 h
  | c h => exact .c (h.upd hs)
  | fin => exact .fin

theorem Chain.zero {next : Nat → Nat} {l : List Nat} (h : Chain next 0 l) : l = [] := by
  cases h with
  | nil => rfl
  | cons h _ => exact absurd rfl h

theorem Chain.ne {next : Nat → Nat} {x : Nat} {l : List Nat} (h : Chain next x l) (hx : x ≠ 0) :
    ∃ l', l = x :: l' ∧ Chain next (next x) l' := by
  cases h with
  | nil => exact absurd rfl hx
  | cons _ h => exact ⟨_, rfl, h⟩

theorem flatten_set : ∀ {W : List (List Nat)} {i : Nat} {w : List Nat} (w' : List Nat) (x : Nat), W[i]? = some w →
    (W.set i w').flatten.count x + w.count x = W.flatten.count x + w'.count x
  | [], i, w, w', x, h => by simp at h
  | a :: W, 0, w, w', x, h => by
    simp only [List.getElem?_cons_zero, Option.some.injEq] at h
    subst h
    simp only [List.set_cons_zero, List.flatten_cons, List.count_append]
    omega
  | a :: W, i + 1, w, w', x, h => by
    simp only [List.getElem?_cons_succ] at h
    have := flatten_set w' x h
    simp only [List.set_cons_succ, List.flatten_cons, List.count_append] at this ⊢
    omega

theorem flatten_ge {W : List (List Nat)} {i : Nat} {w : List Nat} (x : Nat) (h : W[i]? = some w) :
    w.count x ≤ W.flatten.count x := by
  have := flatten_set [] x h
  rw [List.count_nil] at this
  omega

/-- Two threads. -/
theorem flatten_ge2 {W : List (List Nat)} {i j : Nat} {w v : List Nat} (x : Nat) (h : W[i]? = some w) (h' : W[j]? = some v)
    (hij : i ≠ j) : w.count x + v.count x ≤ W.flatten.count x := by
  have := flatten_set [] x h
  have h2 : (W.set i [])[j]? = some v := by rw [List.getElem?_set_ne hij]; exact h'
  have := flatten_ge x h2
  rw [List.count_nil] at *
  omega

/-- What always holds, with the list of the heap and the spans of each thread. -/
structure Inv (N : Nat) (st : St) (S : List Nat) (W : List (List Nat)) : Prop where
  top : Chain st.next st.top S
  len : W.length = st.thr.length
  has : ∀ (i : Nat) (p : Pc) (w : List Nat), st.thr[i]? = some p → W[i]? = some w → Has st.next p w
  cnt : ∀ x, st.user.count x + S.count x + W.flatten.count x = if 1 ≤ x ∧ x ≤ N then 1 else 0
  once : ∀ x, 1 ≤ x → x ≤ N → st.freed x + st.user.count x = st.got x + 1

theorem start_inv (N : Nat) : Inv N (start N) [] [] := by
  have hc : ∀ x, (List.range' 1 N).count x = if 1 ≤ x ∧ x ≤ N then 1 else 0 := by
    intro x
    have hn : (List.range' 1 N).Nodup := List.nodup_range' (step := 1)
    rw [hn.count]
    have hm : x ∈ List.range' 1 N ↔ 1 ≤ x ∧ x ≤ N := by
      rw [List.mem_range'_1]; omega
    simp only [hm]
  refine ⟨.nil, rfl, fun i p w h => by simp [start] at h, fun x => ?_, fun x h1 h2 => ?_⟩
  · simpa [start] using hc x
  · have := hc x
    rw [if_pos ⟨h1, h2⟩] at this
    show 0 + (List.range' 1 N).count x = 0 + 1
    omega

theorem count_erase_mem {l : List Nat} {b : Nat} (hb : b ∈ l) (i : Nat) :
    (l.erase b).count i + [b].count i = l.count i := by
  have := (List.perm_cons_erase hb).count_eq i
  rw [List.count_cons] at this
  rw [List.count_singleton]
  omega

theorem getElem?_append_one {α} {l : List α} {a b : α} {i : Nat} (h : (l ++ [a])[i]? = some b) :
    l[i]? = some b ∨ (i = l.length ∧ b = a) := by
  rw [List.getElem?_append] at h
  split at h
  · exact Or.inl h
  · rename_i hge
    have : i - l.length = 0 := by
      by_contra hn
      rw [List.getElem?_eq_none (by simp; omega)] at h
      simp at h
    rw [this] at h
    simp at h
    exact Or.inr ⟨by omega, h.symm⟩

theorem getElem?_set_or {α} {l : List α} {a b : α} {i j : Nat} (h : (l.set i a)[j]? = some b) :
    (i = j ∧ b = a) ∨ (i ≠ j ∧ l[j]? = some b) := by
  by_cases hij : i = j
  · subst hij
    rw [List.getElem?_set] at h
    simp only [if_true] at h
    split at h
    · exact Or.inl ⟨rfl, by simpa using h.symm⟩
    · simp at h
  · rw [List.getElem?_set_ne hij] at h
    exact Or.inr ⟨hij, h⟩

/-- Thread `i` changes its state and its spans, the links stay as they are for the others. -/
theorem set_has {next next' : Nat → Nat} {thr : List Pc} {W : List (List Nat)} {i : Nat} {p : Pc} {w : List Nat}
    (h : ∀ (i : Nat) (p : Pc) (w : List Nat), thr[i]? = some p → W[i]? = some w → Has next p w)
    (hn : ∀ (j : Nat) (q : Pc) (v : List Nat), i ≠ j → W[j]? = some v → Has next q v → Has next' q v) (hp : Has next' p w) :
    ∀ (j : Nat) (q : Pc) (v : List Nat), (thr.set i p)[j]? = some q → (W.set i w)[j]? = some v → Has next' q v := by
  intro j q v hq hv
  rcases getElem?_set_or hq with ⟨e, rfl⟩ | ⟨e, hq⟩
  · rcases getElem?_set_or hv with ⟨_, rfl⟩ | ⟨e', _⟩
    · exact hp
    · exact absurd e e'
  · rcases getElem?_set_or hv with ⟨e', _⟩ | ⟨_, hv⟩
    · exact absurd e' e
    · exact hn j q v e hv (h j q v hq hv)

theorem step_inv {N : Nat} {st : St} {S : List Nat} {W : List (List Nat)} (I : Inv N st S W) (a : Act) :
    step st a ≠ .ub ∧ ∀ st', step st a = .ok st' → ∃ S' W', Inv N st' S' W' := by
  have hle : ∀ x, st.user.count x + S.count x + W.flatten.count x ≤ 1 := by
    intro x
    rw [I.cnt x]
    split <;> omega
  cases a with
  | push s =>
    simp only [step]
    by_cases hs : s ∈ st.user
    · rw [if_pos hs]
      refine ⟨by simp, fun st' h => ?_⟩
      simp only [Out.ok.injEq] at h
      subst h
      have hsN : 1 ≤ s ∧ s ≤ N := by
        have h1 := I.cnt s
        have h2 := List.count_pos_iff.2 hs
        by_contra hn
        rw [if_neg hn] at h1
        omega
      refine ⟨S, W ++ [[s]], I.top, by simp [I.len], fun i p w hp hw => ?_, fun x => ?_, fun x h1 h2 => ?_⟩
      · rcases getElem?_append_one hp with hp | ⟨e, rfl⟩
        · rcases getElem?_append_one hw with hw | ⟨e, rfl⟩
          · exact I.has i p w hp hw
          · have := (List.getElem?_eq_some_iff.1 hp).1
            have := I.len
            omega
        · rcases getElem?_append_one hw with hw | ⟨e', rfl⟩
          · have := (List.getElem?_eq_some_iff.1 hw).1
            have := I.len
            omega
          · exact .p0 (by omega)
      · have h1 := I.cnt x
        have h2 := count_erase_mem hs x
        rw [List.flatten_append, List.count_append]
        simp only [List.flatten_cons, List.flatten_nil, List.append_nil]
        rw [← h1]
        omega
      · have h3 := I.once x h1 h2
        have h4 := count_erase_mem hs x
        simp only [upd]
        rw [List.count_singleton] at h4
        by_cases hx : x = s
        · subst hx
          simp only [beq_self_eq_true, if_true] at h4 ⊢
          omega
        · rw [if_neg hx]
          have : (s == x) = false := by simpa using fun h => hx h.symm
          rw [this] at h4
          simp only [Bool.false_eq_true, if_false] at h4
          omega
    · rw [if_neg hs]
      exact ⟨by simp, by simp⟩
  | take =>
    simp only [step]
    refine ⟨by simp, fun st' h => ?_⟩
    simp only [Out.ok.injEq] at h
    subst h
    refine ⟨[], W ++ [S], .nil, by simp [I.len], fun i p w hp hw => ?_, fun x => ?_, I.once⟩
    · rcases getElem?_append_one hp with hp | ⟨e, rfl⟩
      · rcases getElem?_append_one hw with hw | ⟨e, rfl⟩
        · exact I.has i p w hp hw
        · have := (List.getElem?_eq_some_iff.1 hp).1
          have := I.len
          omega
      · rcases getElem?_append_one hw with hw | ⟨e', rfl⟩
        · have := (List.getElem?_eq_some_iff.1 hw).1
          have := I.len
          omega
        · exact .c I.top
    · have h1 := I.cnt x
      rw [List.flatten_append, List.count_append]
      simp only [List.flatten_cons, List.flatten_nil, List.append_nil, List.count_nil]
      rw [← h1]
      omega
  | thr i =>
    simp only [step]
    cases hp : st.thr[i]? with
    | none => exact ⟨by simp, by simp⟩
    | some p =>
      have hi : i < W.length := by
        rw [I.len]
        exact (List.getElem?_eq_some_iff.1 hp).1
      have hw : W[i]? = some W[i] := List.getElem?_eq_getElem hi
      obtain ⟨w, hww⟩ : ∃ w, W[i] = w := ⟨_, rfl⟩
      rw [hww] at hw
      have hh := I.has i p w hp hw
      cases p with
      | fin => exact ⟨by simp, by simp⟩
      | p0 s =>
        dsimp only
        refine ⟨by simp, fun st' h => ?_⟩
        simp only [Out.ok.injEq] at h
        subst h
        cases hh with
        | p0 hs =>
        have hsS : s ∉ S := by
          intro hm
          have h1 := List.count_pos_iff.2 hm
          have h2 := hle s
          have h3 := flatten_ge s hw
          rw [List.count_singleton_self] at h3
          omega
        refine ⟨S, W.set i [s], I.top.upd hsS, by simp [I.len], set_has I.has (fun j q v hij hv hq => ?_) (.p1 hs), fun x => ?_, I.once⟩
        · refine hq.upd (fun hm => ?_)
          have h1 := List.count_pos_iff.2 hm
          have h2 := hle s
          have h3 := flatten_ge2 s hw hv hij
          rw [List.count_singleton_self] at h3
          omega
        · have h1 := I.cnt x
          have h2 := flatten_set [s] x hw
          simp only at h1 ⊢
          rw [← h1]
          omega
      | p1 s =>
        dsimp only
        cases hh with
        | p1 hs =>
        by_cases ht : st.top = st.next s
        · rw [if_pos ht]
          refine ⟨by simp, fun st' h => ?_⟩
          simp only [Out.ok.injEq] at h
          subst h
          refine ⟨s :: S, W.set i [], .cons hs (ht ▸ I.top), by simp [I.len],
            set_has I.has (fun j q v _ _ hq => hq) .fin, fun x => ?_, I.once⟩
          have h1 := I.cnt x
          have h2 := flatten_set [] x hw
          rw [List.count_cons]
          rw [List.count_singleton, List.count_nil] at h2
          simp only at h1 ⊢
          rw [← h1]
          omega
        · rw [if_neg ht]
          refine ⟨by simp, fun st' h => ?_⟩
          simp only [Out.ok.injEq] at h
          subst h
          refine ⟨S, W.set i [s], I.top, by simp [I.len], set_has I.has (fun j q v _ _ hq => hq) (.p0 hs), fun x => ?_, I.once⟩
          have h1 := I.cnt x
          have h2 := flatten_set [s] x hw
          simp only at h1 ⊢
          rw [← h1]
          omega
      | c cur =>
        dsimp only
        cases hh with
        | c hch =>
        by_cases hc : cur = 0
        · rw [if_pos hc]
          refine ⟨by simp, fun st' h => ?_⟩
          simp only [Out.ok.injEq] at h
          subst h
          rw [hc] at hch
          have hwn := hch.zero
          subst hwn
          refine ⟨S, W.set i [], I.top, by simp [I.len], set_has I.has (fun j q v _ _ hq => hq) .fin, fun x => ?_, I.once⟩
          have h1 := I.cnt x
          have h2 := flatten_set [] x hw
          simp only at h1 ⊢
          rw [← h1]
          omega
        · rw [if_neg hc]
          obtain ⟨l', rfl, hch'⟩ := hch.ne hc
          have hge := flatten_ge cur hw
          rw [List.count_cons_self] at hge
          have hnu : cur ∉ st.user := by
            intro hm
            have h1 := List.count_pos_iff.2 hm
            have h2 := hle cur
            omega
          rw [if_neg hnu]
          refine ⟨by simp, fun st' h => ?_⟩
          simp only [Out.ok.injEq] at h
          subst h
          refine ⟨S, W.set i l', I.top, by simp [I.len], set_has I.has (fun j q v _ _ hq => hq) (.c hch'), fun x => ?_, fun x h1 h2 => ?_⟩
          · have h1 := I.cnt x
            have h2 := flatten_set l' x hw
            rw [List.count_cons] at h2 ⊢
            rw [← h1]
            omega
          · have h3 := I.once x h1 h2
            simp only [upd]
            rw [List.count_cons]
            by_cases hx : x = cur
            · subst hx
              simp only [beq_self_eq_true, if_true]
              omega
            · rw [if_neg hx]
              have : (cur == x) = false := by simpa using fun h => hx h.symm
              rw [this]
              simpa using h3

theorem reach_inv {N : Nat} {st : St} (h : Reach N st) : ∃ S W, Inv N st S W := by
  induction h with
  | start => exact ⟨[], [], start_inv N⟩
  | step _ hs ih =>
    obtain ⟨S, W, I⟩ := ih
    exact (step_inv I _).2 _ hs

/-! ## Theorems -/

/-- C141: no link is read of a span that is in use again. -/
theorem collected_not_in_use {N : Nat} {st : St} (h : Reach N st) (a : Act) : step st a ≠ .ub := by
  obtain ⟨S, W, I⟩ := reach_inv h
  exact (step_inv I a).1

/-- C141: each span is collected once for each time it was freed: a span in use was collected as often as it was freed, another one
was freed once more; and no span is in use twice. -/
theorem collected_once {N : Nat} {st : St} (h : Reach N st) :
    st.user.Nodup ∧ ∀ s, 1 ≤ s → s ≤ N → st.freed s = st.got s + (if s ∈ st.user then 0 else 1) := by
  obtain ⟨S, W, I⟩ := reach_inv h
  have hle : ∀ x, st.user.count x ≤ 1 := by
    intro x
    have := I.cnt x
    split at this <;> omega
  refine ⟨List.nodup_iff_count_le_one.2 hle, fun s h1 h2 => ?_⟩
  have h3 := I.once s h1 h2
  have h4 := hle s
  split
  · rename_i hm
    have := List.count_pos_iff.2 hm
    omega
  · rename_i hm
    rw [List.count_eq_zero_of_not_mem hm] at h3
    omega

/-- C141: no span is lost: when no thread is in the middle of an operation, the list of the heap consists of exactly the spans not in
use, each once. -/
theorem nothing_lost {N : Nat} {st : St} (h : Reach N st) (hq : ∀ p ∈ st.thr, p = .fin) :
    ∃ S, Chain st.next st.top S ∧ S.Nodup ∧ ∀ s, s ∈ S ↔ 1 ≤ s ∧ s ≤ N ∧ s ∉ st.user := by
  obtain ⟨S, W, I⟩ := reach_inv h
  have hW : ∀ x, W.flatten.count x = 0 := by
    intro x
    rw [List.count_eq_zero]
    intro hm
    obtain ⟨w, hw, hx⟩ := List.mem_flatten.1 hm
    obtain ⟨i, hi⟩ := List.getElem?_of_mem hw
    have hil := (List.getElem?_eq_some_iff.1 hi).1
    rw [I.len] at hil
    have hp : st.thr[i]? = some st.thr[i] := List.getElem?_eq_getElem hil
    have hf := hq st.thr[i] (List.getElem_mem hil)
    have := I.has i _ w hp hi
    rw [hf] at this
    cases this
    simp at hx
  refine ⟨S, I.top, ?_, fun s => ?_⟩
  · refine List.nodup_iff_count_le_one.2 (fun x => ?_)
    have := I.cnt x
    split at this <;> omega
  · have h1 := I.cnt s
    rw [hW s] at h1
    rw [← List.count_pos_iff]
    constructor
    · intro hp
      split at h1
      · rename_i hN
        refine ⟨hN.1, hN.2, fun hm => ?_⟩
        have := List.count_pos_iff.2 hm
        omega
      · omega
    · rintro ⟨a, b, c⟩
      rw [if_pos ⟨a, b⟩, List.count_eq_zero_of_not_mem c] at h1
      omega

/-! ## An example -/

/-- The states of a list of actions. -/
def run : St → List Act → Option St
  | st, [] => some st
  | st, a :: l => match step st a with
    | .ok st => run st l
    | _ => none

theorem run_reach {N : Nat} : ∀ (l : List Act) {st st' : St}, Reach N st → run st l = some st' → Reach N st'
  | [], st, st', hr, h => by
    simp only [run, Option.some.injEq] at h
    exact h ▸ hr
  | a :: l, st, st', hr, h => by
    unfold run at h
    cases hs : step st a with
    | no => rw [hs] at h; simp at h
    | ub => rw [hs] at h; simp at h
    | ok s1 =>
      rw [hs] at h
      exact run_reach l (Reach.step hr hs) h

/-- The actions of an ABA case: span 1 is in the list; thread 1 (pushing span 2) has read the head 1; the owner collects span 1, it is
used, freed and pushed again; then the compare-and-swap of thread 1 succeeds although the head was changed twice. -/
def aba : List Act := [.push 1, .thr 0, .thr 0, .push 2, .thr 1, .take, .thr 2, .thr 2, .push 1, .thr 3, .thr 3, .thr 1]

example : (run (start 2) aba).map (fun st => (st.top, st.next 2, st.next 1, st.user, st.thr)) =
    some (2, 1, 0, [], [.fin, .fin, .fin, .fin]) := by decide

/-- The hypotheses of `nothing_lost` are met with a list of two spans. -/
example : ∃ st, Reach 2 st ∧ (∀ p ∈ st.thr, p = .fin) ∧ st.user = [] := by
  have h : ∃ st, run (start 2) aba = some st ∧ (∀ p ∈ st.thr, p = .fin) ∧ st.user = [] :=
    ⟨_, rfl, by decide, rfl⟩
  obtain ⟨st, h1, h2⟩ := h
  exact ⟨st, run_reach _ Reach.start h1, h2⟩

end Verif.Rp.Stack
