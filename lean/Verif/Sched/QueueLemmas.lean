import Verif.Sched.Queue

namespace Verif.Sched

/-- `xs` is a chain of nodes whose first predecessor is `p` and whose last successor is `n`. -/
def Seg (m : Id → Links) (p : Option Id) : List Id → Option Id → Prop
  | [], _ => True
  | x :: xs, n => (m x).prev = p ∧ (m x).next = (xs.head?.or n) ∧ Seg m (some x) xs n

/-- The list `l` contains exactly `xs`, in this order. -/
structure Rep (l : TL) (xs : List Id) : Prop where
  nodup : xs.Nodup
  head : l.head = xs.head?
  tail : l.tail = xs.getLast?
  seg : Seg l.mem none xs none

theorem seg_congr {m m' : Id → Links} {p n : Option Id} {xs : List Id} (h : ∀ x ∈ xs, m' x = m x) (hs : Seg m p xs n) :
    Seg m' p xs n := by
  induction xs generalizing p with
  | nil => trivial
  | cons x xs ih =>
    obtain ⟨h1, h2, h3⟩ := hs
    refine ⟨?_, ?_, ih (fun y hy => h y (by simp [hy])) h3⟩
    · rw [h x (by simp)]; exact h1
    · rw [h x (by simp)]; exact h2

theorem seg_append {m : Id → Links} {p n : Option Id} {a b : List Id} :
    Seg m p (a ++ b) n ↔ Seg m p a (b.head?.or n) ∧ Seg m (a.getLast?.or p) b n := by
  induction a generalizing p with
  | nil => simp [Seg]
  | cons x a ih =>
    have e : (a ++ b).head?.or n = a.head?.or (b.head?.or n) := by cases a <;> simp
    have e2 : (x :: a).getLast?.or p = a.getLast?.or (some x) := by
      cases a with
      | nil => simp
      | cons y a =>
        rw [List.getLast?_cons_cons]
        obtain ⟨v, hv⟩ : ∃ v, (y :: a).getLast? = some v := ⟨_, List.getLast?_eq_some_getLast (by simp)⟩
        rw [hv]; rfl
    simp only [List.cons_append, Seg, ih, e, e2]
    tauto

theorem setNext_of_ne {m : Id → Links} {i j : Id} {v} (h : j ≠ i) : setNext m i v j = m j := Function.update_of_ne h _ _
theorem setPrev_of_ne {m : Id → Links} {i j : Id} {v} (h : j ≠ i) : setPrev m i v j = m j := Function.update_of_ne h _ _
theorem setNext_self {m : Id → Links} {i : Id} {v} : setNext m i v i = { m i with next := v } := Function.update_self _ _ _
theorem setPrev_self {m : Id → Links} {i : Id} {v} : setPrev m i v i = { m i with prev := v } := Function.update_self _ _ _

theorem seg_setNext_last {m : Id → Links} {p n n' : Option Id} {a : List Id} {z : Id} (hs : Seg m p (a ++ [z]) n)
    (hz : z ∉ a) : Seg (setNext m z n') p (a ++ [z]) n' := by
  rw [seg_append] at hs ⊢
  refine ⟨?_, ?_⟩
  · have := hs.1
    simp only [List.head?_cons, Option.some_or] at this ⊢
    exact seg_congr (fun x hx => setNext_of_ne (by rintro rfl; exact hz hx)) this
  · have := hs.2
    simp only [Seg, List.head?_nil, Option.none_or, and_true] at this ⊢
    rw [setNext_self]
    exact ⟨this.1, rfl⟩

theorem seg_setPrev_first {m : Id → Links} {p p' n : Option Id} {x : Id} {xs : List Id} (hs : Seg m p (x :: xs) n)
    (hx : x ∉ xs) : Seg (setPrev m x p') p' (x :: xs) n := by
  obtain ⟨h1, h2, h3⟩ := hs
  refine ⟨by rw [setPrev_self], by rw [setPrev_self]; exact h2, ?_⟩
  exact seg_congr (fun y hy => setPrev_of_ne (by rintro rfl; exact hx hy)) h3

theorem enqueue_rep {l : TL} {xs : List Id} (h : Rep l xs) {t : Id} (ht : t ∉ xs) : Rep (enqueue l t) (xs ++ [t]) := by
  rcases List.eq_nil_or_concat xs with rfl | ⟨a, z, rfl⟩
  · have ht' : l.tail = none := by simpa using h.tail
    unfold enqueue
    rw [ht']
    refine ⟨by simp, by simp, by simp, ?_⟩
    simp only [List.nil_append, Seg, and_true, List.head?_nil, Option.none_or]
    rw [setNext_self, setPrev_self]
    exact ⟨rfl, rfl⟩
  · simp only [List.concat_eq_append] at h ht ⊢
    have ht' : l.tail = some z := by simpa using h.tail
    have hza : z ∉ a := by have := h.nodup; rw [List.nodup_append] at this; intro hm; exact this.2.2 z hm z (by simp) rfl
    have htz : t ≠ z := by rintro rfl; exact ht (by simp)
    unfold enqueue
    rw [ht']
    refine ⟨?_, ?_, by simp, ?_⟩
    · rw [List.nodup_append]
      exact ⟨h.nodup, by simp, fun x hx y hy => by rw [List.mem_singleton.1 hy]; rintro rfl; exact ht hx⟩
    · have := h.head
      cases a <;> simpa using this
    · rw [seg_append]
      simp only [List.head?_cons, Option.some_or]
      refine ⟨?_, ?_⟩
      · refine seg_congr (m := setNext l.mem z (some t)) ?_ (seg_setNext_last h.seg hza)
        intro x hx
        have : x ≠ t := by rintro rfl; exact ht hx
        rw [setNext_of_ne this, setPrev_of_ne this]
      · simp only [Seg, List.head?_nil, Option.none_or, and_true]
        rw [setNext_self, setPrev_self]
        simp

theorem dequeue_rep {l : TL} {a b : List Id} {t : Id} (h : Rep l (a ++ t :: b)) : Rep (dequeue l t) (a ++ b) := by
  have hnd := h.nodup
  rw [List.nodup_append] at hnd
  obtain ⟨hna, hntb, hdis⟩ := hnd
  have htb : t ∉ b := (List.nodup_cons.1 hntb).1
  have hnb := (List.nodup_cons.1 hntb).2
  have hta : t ∉ a := fun hm => hdis t hm t (by simp) rfl
  have hab : (a ++ b).Nodup := List.nodup_append.2 ⟨hna, hnb, fun x hx y hy => hdis x hx y (by simp [hy])⟩
  have hseg := h.seg
  rw [seg_append] at hseg
  obtain ⟨hsa, hp, hn, hsb⟩ := hseg
  simp only [List.head?_cons, Option.some_or, Option.or_none] at hsa hp hn
  -- step 1
  have step1 : ∀ l1 : TL, l1 = skipForward l t →
      l1.head = (a ++ b).head? ∧ l1.tail = l.tail ∧ Seg l1.mem none a b.head? ∧ Seg l1.mem (some t) b none ∧
        (l1.mem t) = l.mem t := by
    intro l1 e1
    unfold skipForward at e1
    rcases List.eq_nil_or_concat a with rfl | ⟨a', z, rfl⟩
    · have hp' : (l.mem t).prev = none := by simpa using hp
      rw [hp'] at e1
      subst e1
      exact ⟨by simpa using hn, rfl, trivial, hsb, rfl⟩
    · simp only [List.concat_eq_append] at *
      have hp' : (l.mem t).prev = some z := by simpa using hp
      rw [hp'] at e1
      subst e1
      have hza : z ∉ a' := by rw [List.nodup_append] at hna; intro hm; exact hna.2.2 z hm z (by simp) rfl
      have hzt : t ≠ z := by rintro rfl; exact hta (by simp)
      refine ⟨?_, rfl, ?_, ?_, ?_⟩
      · have := h.head
        cases a' <;> simpa using this
      · rw [hn]
        exact seg_setNext_last hsa hza
      · refine seg_congr (fun x hx => setNext_of_ne ?_) hsb
        rintro rfl
        exact hdis x (by simp) x (by simp [hx]) rfl
      · exact setNext_of_ne hzt
  unfold dequeue
  obtain ⟨s1, s2, s3, s4, s5⟩ := step1 _ rfl
  generalize skipForward l t = l1 at *
  unfold skipBackward
  rw [s5, hn]
  cases b with
  | nil =>
    simp only [List.head?_nil]
    refine ⟨hab, s1, ?_, ?_⟩
    · simp only [List.append_nil]; rw [hp]
    · simpa using s3
  | cons y b =>
    simp only [List.head?_cons]
    have hyb : y ∉ b := (List.nodup_cons.1 hnb).1
    refine ⟨hab, s1, ?_, ?_⟩
    · show l1.tail = _
      rw [s2, h.tail]
      simp [List.getLast?_append, List.getLast?_cons_cons]
    · rw [seg_append]
      refine ⟨?_, ?_⟩
      · refine seg_congr (fun x hx => setPrev_of_ne ?_) (by simpa using s3)
        rintro rfl
        exact hdis x hx x (by simp) rfl
      · rw [Option.or_none, hp]
        exact seg_setPrev_first s4 hyb

theorem taskDequeue_nil {l : TL} (h : Rep l []) : taskDequeue l = (none, l) := by
  have : l.head = none := by simpa using h.head
  simp [taskDequeue, this]

theorem taskDequeue_cons {l : TL} {x : Id} {xs : List Id} (h : Rep l (x :: xs)) :
    (taskDequeue l).1 = some x ∧ Rep (taskDequeue l).2 xs := by
  have hh : l.head = some x := by simpa using h.head
  have := dequeue_rep (a := []) (b := xs) (by simpa using h)
  simp only [taskDequeue, hh]
  exact ⟨trivial, by simpa using this⟩

theorem empty_rep (m : Id → Links) : Rep (TL.empty m) [] := ⟨by simp, rfl, rfl, trivial⟩

end Verif.Sched
