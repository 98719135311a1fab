import Mathlib.Data.List.Basic
import Mathlib.Data.List.Nodup
import Mathlib.Logic.Function.Basic
import Mathlib.Tactic.ByContra

/-!
# The lists of spans with free blocks (`src/rpmalloc.c` 1070-1097), C200

One list for each size class; the links are in the headers of the spans.  The pointer back of the first span of a list is whatever
was there before.
-/

namespace Verif.Rp.Links

/-- The heads of the lists and the links in the headers; 0 is `NULL`. -/
structure St where
  head : Nat → Nat
  next : Nat → Nat
  prev : Nat → Nat

/-- `_rpmalloc_span_double_link_list_add`, src/rpmalloc.c:1070-1075. -/
def add (c x : Nat) (s : St) : St :=
  { head := Function.update s.head c x
    next := Function.update s.next x (s.head c)
    prev := if s.head c ≠ 0 then Function.update s.prev (s.head c) x else s.prev }

/-- `_rpmalloc_span_double_link_list_pop_head`, src/rpmalloc.c:1078-1082; `none`: a null pointer is followed. -/
def pop (c : Nat) (s : St) : Option St :=
  if s.head c = 0 then none else some { s with head := Function.update s.head c (s.next (s.head c)) }

/-- `_rpmalloc_span_double_link_list_remove`, src/rpmalloc.c:1085-1096. -/
def remove (c x : Nat) (s : St) : Option St :=
  if s.head c = x then some { s with head := Function.update s.head c (s.next x) }
  else if s.prev x = 0 then none
  else some { s with
    next := Function.update s.next (s.prev x) (s.next x)
    prev := if s.next x ≠ 0 then Function.update s.prev (s.next x) (s.prev x) else s.prev }

/-- What the allocator does with the lists. -/
inductive Op where
  | add (c x : Nat)
  | pop (c : Nat)
  | remove (c x : Nat)

def step (s : St) : Op → Option St
  | .add c x => some (add c x s)
  | .pop c => pop c s
  | .remove c x => remove c x s

/-- The spans met from a pointer on. -/
def collect (s : St) : Nat → Nat → List Nat
  | 0, _ => []
  | n + 1, h => if h = 0 then [] else h :: collect s n (s.next h)

/-! ## Lists -/

/-- The lists proper. -/
def specStep (L : Nat → List Nat) : Op → Nat → List Nat
  | .add c x => Function.update L c (x :: L c)
  | .pop c => Function.update L c (L c).tail
  | .remove c x => Function.update L c ((L c).erase x)

/-- What the callers keep to: a span is added which is in no list, taken from a list which is not empty, removed from the list it is in
(src/rpmalloc.c:1329, 1392, 2034, 2101, 2332, 2349). -/
def Legal (L : Nat → List Nat) : Op → Prop
  | .add _ x => x ≠ 0 ∧ ∀ d, x ∉ L d
  | .pop c => L c ≠ []
  | .remove c x => x ∈ L c

/-! ## The links stand for the lists -/

def Chain (s : St) : Nat → List Nat → Prop
  | h, [] => h = 0
  | h, x :: t => h = x ∧ x ≠ 0 ∧ (∀ y, t.head? = some y → s.prev y = x) ∧ Chain s (s.next x) t

structure Rep (s : St) (L : Nat → List Nat) : Prop where
  chain : ∀ c, Chain s (s.head c) (L c)
  nodup : ∀ c, (L c).Nodup
  apart : ∀ c d, c ≠ d → ∀ x ∈ L c, x ∉ L d

theorem chain_frame {s s' : St} : ∀ {l : List Nat} {h : Nat}, (∀ x ∈ l, s'.next x = s.next x) → (∀ x ∈ l.tail, s'.prev x = s.prev x) →
    Chain s h l → Chain s' h l := by
  intro l
  induction l with
  | nil => intro h _ _ hc; exact hc
  | cons x t ih =>
    intro h hn hp ⟨h1, h2, h3, h4⟩
    refine ⟨h1, h2, fun y hy => ?_, ?_⟩
    · rw [hp y (List.mem_of_mem_head? hy)]
      exact h3 y hy
    · rw [hn x (by simp)]
      exact ih (fun y hy => hn y (by simp [hy])) (fun y hy => hp y (List.mem_of_mem_tail hy)) h4

theorem chain_ne {s : St} : ∀ {l : List Nat} {h : Nat}, Chain s h l → ∀ x ∈ l, x ≠ 0 := by
  intro l
  induction l with
  | nil => intro h _ x hx; simp at hx
  | cons y t ih =>
    intro h ⟨_, h2, _, h4⟩ x hx
    rcases List.mem_cons.1 hx with rfl | hx
    · exact h2
    · exact ih h4 x hx

theorem chain_head {s : St} {l : List Nat} {h : Nat} (hc : Chain s h l) : h = l.head?.getD 0 := by
  cases l with
  | nil => exact hc
  | cons x t => exact hc.1

/-- A span behind the first: its predecessor, and the chain around it. -/
theorem chain_mid {s : St} : ∀ {l : List Nat} {h x : Nat}, Chain s h l → x ∈ l → l.head? ≠ some x →
    ∃ a p b, l = a ++ p :: x :: b ∧ s.prev x = p ∧ s.next p = x ∧ s.next x = b.head?.getD 0 ∧ p ≠ 0 := by
  intro l
  induction l with
  | nil => intro h x _ hx; simp at hx
  | cons y t ih =>
    intro h x ⟨h1, h2, h3, h4⟩ hx hne
    rcases List.mem_cons.1 hx with rfl | hx
    · simp at hne
    · by_cases hh : t.head? = some x
      · cases t with
        | nil => simp at hx
        | cons z u =>
          simp only [List.head?_cons, Option.some.injEq] at hh
          subst hh
          exact ⟨[], y, u, rfl, h3 z rfl, h4.1, chain_head h4.2.2.2, h2⟩
      · obtain ⟨a, p, b, rfl, r⟩ := ih h4 hx hh
        exact ⟨y :: a, p, b, rfl, r⟩

/-- Cutting a span out. -/
theorem chain_cut {s : St} {x p : Nat} {b : List Nat} : ∀ {a : List Nat} {h : Nat}, Chain s h (a ++ p :: x :: b) →
    (a ++ p :: x :: b).Nodup → s.next x = b.head?.getD 0 →
    Chain { s with
      next := Function.update s.next p (s.next x)
      prev := if s.next x ≠ 0 then Function.update s.prev (s.next x) p else s.prev } h (a ++ p :: b) := by
  intro a
  induction a with
  | nil =>
    intro h ⟨h1, h2, h3, h4, h5, h6, h7⟩ hn hx
    simp only [List.nil_append, List.nodup_cons, List.mem_cons, not_or] at hn
    obtain ⟨⟨hpx, hpb⟩, hxb, hb⟩ := hn
    refine ⟨h1, h2, fun y hy => ?_, ?_⟩
    · have hy' : s.next x = y := by rw [hx, hy]; rfl
      have hy0 : y ≠ 0 := chain_ne h7 y (List.mem_of_mem_head? hy)
      simp [hy', hy0]
    · show Chain _ (Function.update s.next p (s.next x) p) b
      rw [Function.update_self]
      refine chain_frame (fun y hy => ?_) (fun y hy => ?_) h7
      · show Function.update s.next p (s.next x) y = _
        rw [Function.update_of_ne]
        rintro rfl
        exact hpb hy
      · show (if s.next x ≠ 0 then Function.update s.prev (s.next x) p else s.prev) y = _
        split
        · rw [Function.update_of_ne]
          rintro rfl
          cases b with
          | nil => simp at hy
          | cons z u =>
            simp only [List.head?_cons, Option.getD_some] at hx
            rw [hx] at hy
            exact (List.nodup_cons.1 hb).1 hy
        · rfl
  | cons y t ih =>
    intro h ⟨h1, h2, h3, h4⟩ hn hx
    obtain ⟨hy, hn⟩ := List.nodup_cons.1 hn
    have hyp : y ≠ p := by rintro rfl; exact hy (by simp)
    refine ⟨h1, h2, fun z hz => ?_, ?_⟩
    · have hz' : (t ++ p :: x :: b).head? = some z := by
        cases t <;> simpa using hz
      rw [← h3 z hz']
      show (if s.next x ≠ 0 then Function.update s.prev (s.next x) p else s.prev) z = _
      split
      · next h0 =>
        rw [Function.update_of_ne]
        rintro rfl
        -- the span after `x` is not the head of the rest
        cases b with
        | nil => simp at hx; exact h0 hx
        | cons w u =>
          simp only [List.head?_cons, Option.getD_some] at hx
          rw [hx] at hz'
          cases t with
          | nil =>
            simp only [List.nil_append, List.head?_cons, Option.some.injEq] at hz'
            subst hz'
            simp at hn
          | cons v r =>
            simp only [List.cons_append, List.head?_cons, Option.some.injEq] at hz'
            subst hz'
            simp at hn
      · rfl
    · show Chain _ (Function.update s.next p (s.next x) y) (t ++ p :: b)
      rw [Function.update_of_ne hyp]
      exact ih h4 hn hx

theorem step_rep {s : St} {L : Nat → List Nat} (hr : Rep s L) {op : Op} (hl : Legal L op) :
    ∃ s', step s op = some s' ∧ Rep s' (specStep L op) := by
  cases op with
  | add c x =>
    obtain ⟨hx0, hxn⟩ := hl
    refine ⟨_, rfl, fun d => ?_, fun d => ?_, fun d e hde y hy => ?_⟩
    · -- chains
      show Chain _ (Function.update s.head c x d) (Function.update L c (x :: L c) d)
      by_cases hdc : d = c
      · subst hdc
        rw [Function.update_self, Function.update_self]
        have hc := hr.chain d
        refine ⟨rfl, hx0, fun y hy => ?_, ?_⟩
        · have hy' := chain_head hc
          rw [hy] at hy'
          have hy0 : y ≠ 0 := chain_ne hc y (List.mem_of_mem_head? hy)
          show (if s.head d ≠ 0 then Function.update s.prev (s.head d) x else s.prev) y = x
          simp only [Option.getD_some] at hy'
          rw [hy', if_pos hy0, Function.update_self]
        · show Chain _ (Function.update s.next x (s.head d) x) (L d)
          rw [Function.update_self]
          refine chain_frame (fun y hy => ?_) (fun y hy => ?_) hc
          · show Function.update s.next x (s.head d) y = _
            rw [Function.update_of_ne]
            rintro rfl
            exact hxn d hy
          · show (if s.head d ≠ 0 then Function.update s.prev (s.head d) x else s.prev) y = _
            split
            · rw [Function.update_of_ne]
              have hn := hr.nodup d
              have hh := chain_head hc
              rintro rfl
              cases hL : L d with
              | nil => rw [hL] at hy; simp at hy
              | cons z u =>
                rw [hL] at hy hn hh
                simp only [List.head?_cons, Option.getD_some] at hh
                rw [hh] at hy
                exact (List.nodup_cons.1 hn).1 hy
            · rfl
      · rw [Function.update_of_ne hdc, Function.update_of_ne hdc]
        refine chain_frame (fun y hy => ?_) (fun y hy => ?_) (hr.chain d)
        · show Function.update s.next x (s.head c) y = _
          rw [Function.update_of_ne]
          rintro rfl
          exact hxn d hy
        · show (if s.head c ≠ 0 then Function.update s.prev (s.head c) x else s.prev) y = _
          split
          · next h0 =>
            rw [Function.update_of_ne]
            rintro rfl
            have hh := chain_head (hr.chain c)
            cases hL : L c with
            | nil => rw [hL] at hh; exact h0 hh
            | cons z u =>
              rw [hL] at hh
              simp only [List.head?_cons, Option.getD_some] at hh
              exact hr.apart d c hdc _ (List.mem_of_mem_tail hy) (by rw [hL, hh]; simp)
          · rfl
    · show (Function.update L c (x :: L c) d).Nodup
      by_cases hdc : d = c
      · subst hdc
        rw [Function.update_self]
        exact List.nodup_cons.2 ⟨hxn d, hr.nodup d⟩
      · rw [Function.update_of_ne hdc]
        exact hr.nodup d
    · change y ∈ Function.update L c (x :: L c) d at hy
      show y ∉ Function.update L c (x :: L c) e
      by_cases hdc : d = c
      · subst hdc
        rw [Function.update_self] at hy
        rw [Function.update_of_ne (Ne.symm hde)]
        rcases List.mem_cons.1 hy with rfl | hy
        · exact hxn e
        · exact hr.apart _ _ hde y hy
      · rw [Function.update_of_ne hdc] at hy
        by_cases hec : e = c
        · subst hec
          rw [Function.update_self, List.mem_cons, not_or]
          refine ⟨?_, hr.apart _ _ hde y hy⟩
          rintro rfl
          exact hxn d hy
        · rw [Function.update_of_ne hec]
          exact hr.apart _ _ hde y hy
  | pop c =>
    have hc := hr.chain c
    cases hL : L c with
    | nil => exact absurd hL hl
    | cons x t =>
      rw [hL] at hc
      obtain ⟨h1, h2, h3, h4⟩ := hc
      have hsub : ∀ d, (specStep L (.pop c) d).Sublist (L d) := by
        intro d
        show (Function.update L c (L c).tail d).Sublist _
        by_cases hdc : d = c
        · subst hdc; rw [Function.update_self]; exact List.tail_sublist _
        · rw [Function.update_of_ne hdc]
      refine ⟨{ s with head := Function.update s.head c (s.next (s.head c)) }, ?_, fun d => ?_, fun d => (hr.nodup d).sublist (hsub d),
        fun d e hde y hy hy' => hr.apart d e hde y ((hsub d).mem hy) ((hsub e).mem hy')⟩
      · show pop c s = _
        unfold pop
        rw [if_neg (by rw [h1]; exact h2)]
      · show Chain _ (Function.update s.head c (s.next (s.head c)) d) (Function.update L c (L c).tail d)
        by_cases hdc : d = c
        · subst hdc
          rw [Function.update_self, Function.update_self, hL, h1]
          exact chain_frame (s := s) (fun _ _ => rfl) (fun _ _ => rfl) h4
        · rw [Function.update_of_ne hdc, Function.update_of_ne hdc]
          exact chain_frame (s := s) (fun _ _ => rfl) (fun _ _ => rfl) (hr.chain d)
  | remove c x =>
    have hsub : ∀ d, (specStep L (.remove c x) d).Sublist (L d) := by
      intro d
      show (Function.update L c ((L c).erase x) d).Sublist _
      by_cases hdc : d = c
      · subst hdc; rw [Function.update_self]; exact List.erase_sublist
      · rw [Function.update_of_ne hdc]
    have hc := hr.chain c
    have hn := hr.nodup c
    by_cases hh : (L c).head? = some x
    · have hx : s.head c = x := by rw [chain_head hc, hh]; rfl
      refine ⟨{ s with head := Function.update s.head c (s.next x) }, ?_, fun d => ?_, fun d => (hr.nodup d).sublist (hsub d),
        fun d e hde y hy hy' => hr.apart d e hde y ((hsub d).mem hy) ((hsub e).mem hy')⟩
      · show remove c x s = _
        unfold remove
        rw [if_pos hx]
      · show Chain _ (Function.update s.head c (s.next x) d) (Function.update L c ((L c).erase x) d)
        by_cases hdc : d = c
        · subst hdc
          rw [Function.update_self, Function.update_self]
          cases hL : L d with
          | nil => rw [hL] at hh; simp at hh
          | cons z t =>
            rw [hL] at hh hc
            simp only [List.head?_cons, Option.some.injEq] at hh
            subst hh
            rw [List.erase_cons_head]
            exact chain_frame (s := s) (fun _ _ => rfl) (fun _ _ => rfl) hc.2.2.2
        · rw [Function.update_of_ne hdc, Function.update_of_ne hdc]
          exact chain_frame (s := s) (fun _ _ => rfl) (fun _ _ => rfl) (hr.chain d)
    · obtain ⟨a, p, b, hL, e1, e2, e3, e4⟩ := chain_mid hc hl hh
      have hx : s.head c ≠ x := by
        intro h
        rw [chain_head hc] at h
        cases hL' : L c with
        | nil => have := (show x ∈ L c from hl); rw [hL'] at this; simp at this
        | cons z t => rw [hL'] at h hh; simp at h hh; exact hh h
      have her : (L c).erase x = a ++ p :: b := by
        rw [hL] at hn ⊢
        have hxa : x ∉ a := by
          intro hxa
          have := List.disjoint_of_nodup_append hn hxa
          simp at this
        have hpx : p ≠ x := by
          rintro rfl
          have := (List.nodup_append.1 hn).2.1
          simp at this
        rw [List.erase_append_right _ hxa, List.erase_cons_tail (by simpa using hpx), List.erase_cons_head]
      refine ⟨{ s with
          next := Function.update s.next p (s.next x)
          prev := if s.next x ≠ 0 then Function.update s.prev (s.next x) p else s.prev }, ?_, fun d => ?_,
        fun d => (hr.nodup d).sublist (hsub d),
        fun d e hde y hy hy' => hr.apart d e hde y ((hsub d).mem hy) ((hsub e).mem hy')⟩
      · show remove c x s = _
        unfold remove
        rw [if_neg hx, if_neg (by rw [e1]; exact e4), e1]
      · show Chain _ (s.head d) (Function.update L c ((L c).erase x) d)
        by_cases hdc : d = c
        · subst hdc
          rw [Function.update_self, her]
          rw [hL] at hc hn
          exact chain_cut hc hn e3
        · rw [Function.update_of_ne hdc]
          refine chain_frame (fun y hy => ?_) (fun y hy => ?_) (hr.chain d)
          · show Function.update s.next p (s.next x) y = _
            rw [Function.update_of_ne]
            rintro rfl
            exact hr.apart d c hdc _ hy (by rw [hL]; simp)
          · show (if s.next x ≠ 0 then Function.update s.prev (s.next x) p else s.prev) y = _
            split
            · next h0 =>
              rw [Function.update_of_ne]
              rintro rfl
              refine hr.apart d c hdc _ (List.mem_of_mem_tail hy) ?_
              cases b with
              | nil => simp at e3; exact absurd e3 h0
              | cons w u =>
                simp only [List.head?_cons, Option.getD_some] at e3
                rw [hL, e3]
                simp
            · rfl

/-! ## The claim -/

def run (s : St) : List Op → Option St
  | [] => some s
  | o :: t => (step s o).bind (run · t)

def specRun (L : Nat → List Nat) : List Op → Nat → List Nat
  | [] => L
  | o :: t => specRun (specStep L o) t

/-- All calls are legal when they are made. -/
def AllLegal (L : Nat → List Nat) : List Op → Prop
  | [] => True
  | o :: t => Legal L o ∧ AllLegal (specStep L o) t

theorem run_rep {s : St} {L : Nat → List Nat} (ops : List Op) : Rep s L → AllLegal L ops → ∃ s', run s ops = some s' ∧ Rep s' (specRun L ops) := by
  induction ops generalizing s L with
  | nil => intro hr _; exact ⟨s, rfl, hr⟩
  | cons o t ih =>
    intro hr ⟨h1, h2⟩
    obtain ⟨s', e, hr'⟩ := step_rep hr h1
    obtain ⟨s'', e', hr''⟩ := ih hr' h2
    exact ⟨s'', by rw [run, e]; exact e', hr''⟩

theorem collect_chain {s : St} : ∀ {l : List Nat} {h n : Nat}, Chain s h l → l.length < n → collect s n h = l := by
  intro l
  induction l with
  | nil => intro h n hc hn; cases n with
    | zero => rfl
    | succ n => exact if_pos hc
  | cons x t ih =>
    intro h n ⟨h1, h2, _, h4⟩ hn
    cases n with
    | zero => simp at hn
    | succ n =>
      subst h1
      rw [collect, if_neg h2, ih h4 (by simpa using hn)]

/-- From empty lists and any contents of the headers, any legal calls: no null pointer is followed, and each list holds the spans added and
not taken since, last added first. -/
theorem lists_refine {s : St} (h0 : ∀ c, s.head c = 0) {ops : List Op} (hl : AllLegal (fun _ => []) ops) :
    ∃ s', run s ops = some s' ∧ ∀ c n, (specRun (fun _ => []) ops c).length < n → collect s' n (s'.head c) = specRun (fun _ => []) ops c := by
  have hr : Rep s (fun _ => []) := ⟨h0, fun _ => List.nodup_nil, fun _ _ _ _ h => by simp at h⟩
  obtain ⟨s', e, hr'⟩ := run_rep ops hr hl
  exact ⟨s', e, fun c n hn => collect_chain (hr'.chain c) hn⟩

/-- Three spans, of which the middle one and then the first is removed, with stale links in the headers. -/
example : AllLegal (fun _ => []) [.add 1 10, .add 1 20, .add 2 40, .add 1 30, .remove 1 20, .remove 1 30, .add 1 20, .pop 2] ∧
    (run ⟨fun _ => 0, fun _ => 99, fun _ => 98⟩ [.add 1 10, .add 1 20, .add 2 40, .add 1 30, .remove 1 20, .remove 1 30, .add 1 20, .pop 2]).map
      (fun s => (collect s 5 (s.head 1), collect s 5 (s.head 2))) = some ([20, 10], []) := by
  constructor
  · simp only [AllLegal, Legal, specStep]
    refine ⟨⟨by decide, fun d => by simp⟩, ⟨by decide, fun d => ?_⟩, ⟨by decide, fun d => ?_⟩, ⟨by decide, fun d => ?_⟩, by decide, by decide,
      ⟨by decide, fun d => ?_⟩, by decide, trivial⟩
    all_goals
      by_cases h1 : d = 1
      · subst h1; decide
      · by_cases h2 : d = 2
        · subst h2; decide
        · simp [h1, h2]
  · decide

end Verif.Rp.Links
