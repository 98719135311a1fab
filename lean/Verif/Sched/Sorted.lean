import Verif.Sched.QueueLemmas
import Mathlib.Data.List.Sort

/-!
# Insertion into a list ordered by deadline

The code is the same for the sleep queue (`add_timeout`, src/events.c:1356-1386) and for the timer list
(`events_actor_timeout`, src/events.c:885-920).
-/

namespace Verif.Sched

/-- The search loop `for (t = head; t != NULL && t->alarm < when; t = t->next)`, src/events.c:1360-1361 and 894-895.
`fuel` bounds the number of rounds; `none` means the loop did not end within it. -/
def findSlot (m : Id → Links) (alarm : Id → Nat) : Nat → Option Id → Nat → Option (Option Id)
  | 0, _, _ => none
  | _ + 1, none, _ => some none
  | n + 1, some t, w => if alarm t < w then findSlot m alarm n (m t).next w else some (some t)

/-- First part of the insertion, src/events.c:1363-1369 and 897-903: the links of the new node. -/
def insertLinks (l : TL) (t : Id) (pos : Option Id) : TL :=
  match pos with
  | some p => { l with mem := setNext (setPrev l.mem t (l.mem p).prev) t (some p) }
  | none => { l with mem := setNext (setPrev l.mem t l.tail) t none }

/-- Second part, src/events.c:1374-1377 and 910-913: predecessor or head. -/
def insertPrev (l : TL) (t : Id) : TL :=
  match (l.mem t).prev with
  | some p => { l with mem := setNext l.mem p (some t) }
  | none => { l with head := some t }

/-- Third part, src/events.c:1379-1382 and 915-918: successor or tail. -/
def insertNext (l : TL) (t : Id) : TL :=
  match (l.mem t).next with
  | some n => { l with mem := setPrev l.mem n (some t) }
  | none => { l with tail := some t }

def insertAt (l : TL) (t : Id) (pos : Option Id) : TL := insertNext (insertPrev (insertLinks l t pos) t) t

/-! ### lemmas -/

theorem findSlot_seg {m : Id → Links} {alarm : Id → Nat} {w : Nat} : ∀ {xs : List Id} {p : Option Id} {fuel : Nat},
    Seg m p xs none → xs.length < fuel →
    findSlot m alarm fuel xs.head? w = some ((xs.dropWhile fun t => alarm t < w).head?)
  | [], _, fuel, _, hf => by
    obtain ⟨n, rfl⟩ : ∃ n, fuel = n + 1 := ⟨fuel - 1, by simp at hf; omega⟩
    rfl
  | x :: xs, p, fuel, h, hf => by
    obtain ⟨n, rfl⟩ : ∃ n, fuel = n + 1 := ⟨fuel - 1, by simp at hf; omega⟩
    simp only [List.head?_cons, findSlot, List.dropWhile_cons, decide_eq_true_eq]
    split
    · have hn := h.2.1
      rw [Option.or_none] at hn
      rw [hn, findSlot_seg h.2.2 (by simp at hf; omega)]
    · rfl

theorem insertLinks_rep {l : TL} {a b : List Id} {t : Id} (h : Rep l (a ++ b)) (ht : t ∉ a ++ b) :
    ∃ l1, insertLinks l t b.head? = l1 ∧ l1.head = l.head ∧ l1.tail = l.tail ∧ Seg l1.mem none (a ++ b) none ∧
      (l1.mem t).prev = a.getLast? ∧ (l1.mem t).next = b.head? := by
  refine ⟨_, rfl, ?_⟩
  have hc : ∀ (q r : Option Id), Seg (setNext (setPrev l.mem t q) t r) none (a ++ b) none := fun q r =>
    seg_congr (fun x hx => by
      have : x ≠ t := by rintro rfl; exact ht hx
      rw [setNext_of_ne this, setPrev_of_ne this]) h.seg
  cases b with
  | nil =>
    refine ⟨rfl, rfl, hc _ _, ?_, ?_⟩
    · show (setNext (setPrev l.mem t l.tail) t none t).prev = _
      rw [setNext_self, setPrev_self]
      simpa using h.tail
    · show (setNext (setPrev l.mem t l.tail) t none t).next = _
      rw [setNext_self]; rfl
  | cons y b =>
    refine ⟨rfl, rfl, hc _ _, ?_, ?_⟩
    · show (setNext (setPrev l.mem t (l.mem y).prev) t (some y) t).prev = _
      rw [setNext_self, setPrev_self]
      have := h.seg
      rw [seg_append] at this
      simpa using this.2.1
    · show (setNext (setPrev l.mem t (l.mem y).prev) t (some y) t).next = _
      rw [setNext_self]; rfl

theorem insertPrev_rep {l l1 : TL} {a b : List Id} {t : Id} (hr : Rep l (a ++ b)) (ht : t ∉ a ++ b)
    (hh : l1.head = l.head) (htl : l1.tail = l.tail) (hs : Seg l1.mem none (a ++ b) none)
    (hp : (l1.mem t).prev = a.getLast?) (hn : (l1.mem t).next = b.head?) :
    ∃ l2, insertPrev l1 t = l2 ∧ l2.head = (a ++ t :: b).head? ∧ l2.tail = l.tail ∧ Seg l2.mem none a (some t) ∧
      Seg l2.mem a.getLast? b none ∧ l2.mem t = l1.mem t := by
  have hnd := hr.nodup
  rw [List.nodup_append] at hnd
  rw [seg_append] at hs
  refine ⟨_, rfl, ?_⟩
  unfold insertPrev
  rw [hp]
  rcases List.eq_nil_or_concat a with rfl | ⟨a', z, rfl⟩
  · refine ⟨by simp, htl, trivial, ?_, rfl⟩
    simpa using hs.2
  · simp only [List.concat_eq_append] at *
    have hg : (a' ++ [z]).getLast? = some z := by simp
    simp only [hg]
    have hza : z ∉ a' := by
      have := hnd.1
      rw [List.nodup_append] at this; intro hm; exact this.2.2 z hm z (by simp) rfl
    have hzt : t ≠ z := by rintro rfl; exact ht (by simp)
    refine ⟨?_, htl, ?_, ?_, ?_⟩
    · show l1.head = _
      rw [hh, hr.head]
      cases a' <;> simp
    · exact seg_setNext_last hs.1 hza
    · refine seg_congr (fun x hx => setNext_of_ne ?_) (by simpa using hs.2)
      rintro rfl
      exact hnd.2.2 x (by simp) x hx rfl
    · exact setNext_of_ne hzt

theorem insertAt_rep {l : TL} {a b : List Id} {t : Id} (h : Rep l (a ++ b)) (ht : t ∉ a ++ b) :
    Rep (insertAt l t b.head?) (a ++ t :: b) := by
  obtain ⟨l1, e1, hh, htl, hs, hp, hn⟩ := insertLinks_rep h ht
  obtain ⟨l2, e2, hh2, ht2, hsa, hsb, hm⟩ := insertPrev_rep h ht hh htl hs hp hn
  unfold insertAt
  rw [e1, e2]
  have hnd := h.nodup
  rw [List.nodup_append] at hnd
  have hta : t ∉ a := fun hm => ht (by simp [hm])
  have htb : t ∉ b := fun hm => ht (by simp [hm])
  have hnd' : (a ++ t :: b).Nodup := by
    rw [List.nodup_append]
    refine ⟨hnd.1, List.nodup_cons.2 ⟨htb, hnd.2.1⟩, fun x hx y hy => ?_⟩
    rcases List.mem_cons.1 hy with rfl | hy
    · rintro rfl; exact hta hx
    · exact hnd.2.2 x hx y hy
  unfold insertNext
  rw [hm, hn]
  cases b with
  | nil =>
    refine ⟨hnd', hh2, by simp, ?_⟩
    rw [seg_append]
    refine ⟨by simpa using hsa, ?_, ?_, trivial⟩
    · simp only [List.head?_nil]
      rw [hm, hp]; simp
    · simp only [List.head?_nil]
      rw [hm, hn]; rfl
  | cons y b =>
    simp only [List.head?_cons]
    have hyb : y ∉ b := (List.nodup_cons.1 hnd.2.1).1
    have hty : t ≠ y := by rintro rfl; exact htb (by simp)
    refine ⟨hnd', hh2, ?_, ?_⟩
    · show l2.tail = _
      rw [ht2, h.tail]
      simp [List.getLast?_append, List.getLast?_cons_cons]
    · rw [seg_append]
      refine ⟨?_, ?_, ?_, ?_⟩
      · refine seg_congr (fun x hx => setPrev_of_ne ?_) (by simpa using hsa)
        rintro rfl
        exact hnd.2.2 x hx x (by simp) rfl
      · show (setPrev l2.mem y (some t) t).prev = _
        rw [setPrev_of_ne hty, hm, hp]; simp
      · show (setPrev l2.mem y (some t) t).next = _
        rw [setPrev_of_ne hty, hm, hn]; simp
      · exact seg_setPrev_first hsb hyb

/-! ### nodes outside the list are left alone -/

theorem enqueue_frame {l : TL} {xs : List Id} (h : Rep l xs) {t x : Id} (hx : x ≠ t) (hxs : x ∉ xs) :
    (enqueue l t).mem x = l.mem x := by
  unfold enqueue
  have := h.tail
  cases e : l.tail with
  | none => simp only; rw [setNext_of_ne hx, setPrev_of_ne hx]
  | some z =>
    have hz : z ∈ xs := List.mem_of_getLast? (by rw [← this, e])
    have hxz : x ≠ z := by rintro rfl; exact hxs hz
    simp only; rw [setNext_of_ne hx, setPrev_of_ne hx, setNext_of_ne hxz]

theorem seg_prev_mem {m : Id → Links} : ∀ {xs : List Id} {p n : Option Id} {t q : Id}, Seg m p xs n → t ∈ xs →
    (m t).prev = some q → q ∈ xs ∨ p = some q
  | x :: xs, p, n, t, q, h, ht, hq => by
    rcases List.mem_cons.1 ht with rfl | ht
    · right; rw [← h.1, hq]
    · rcases seg_prev_mem h.2.2 ht hq with h | h
      · left; simp [h]
      · left; simp at h; simp [h]

theorem seg_next_mem {m : Id → Links} : ∀ {xs : List Id} {p n : Option Id} {t q : Id}, Seg m p xs n → t ∈ xs →
    (m t).next = some q → q ∈ xs ∨ n = some q
  | x :: xs, p, n, t, q, h, ht, hq => by
    rcases List.mem_cons.1 ht with rfl | ht
    · have := h.2.1
      rw [hq] at this
      cases xs with
      | nil => right; simpa using this.symm
      | cons y ys => left; simp at this; simp [this]
    · rcases seg_next_mem h.2.2 ht hq with h | h
      · left; simp [h]
      · right; exact h

theorem dequeue_frame {l : TL} {xs : List Id} (h : Rep l xs) {t x : Id} (ht : t ∈ xs) (hxs : x ∉ xs) :
    (dequeue l t).mem x = l.mem x := by
  have hxt : x ≠ t := by rintro rfl; exact hxs ht
  have hp : ∀ q, (l.mem t).prev = some q → x ≠ q := by
    intro q hq
    rcases seg_prev_mem h.seg ht hq with h | h
    · rintro rfl; exact hxs h
    · simp at h
  have hn : ∀ q, (l.mem t).next = some q → x ≠ q := by
    intro q hq
    rcases seg_next_mem h.seg ht hq with h | h
    · rintro rfl; exact hxs h
    · simp at h
  have e1 : (skipForward l t).mem x = l.mem x ∧ ((skipForward l t).mem t).next = (l.mem t).next := by
    unfold skipForward
    cases e : (l.mem t).prev with
    | none => simp
    | some p =>
      refine ⟨setNext_of_ne (hp p e), ?_⟩
      by_cases htp : t = p
      · subst htp; show (setNext l.mem t _ t).next = _; rw [setNext_self]
      · show (setNext l.mem p _ t).next = _; rw [setNext_of_ne htp]
  unfold dequeue skipBackward
  rw [e1.2]
  cases e : (l.mem t).next with
  | none => exact e1.1
  | some n =>
    show setPrev _ n _ x = _
    rw [setPrev_of_ne (hn n e), e1.1]

theorem insertAt_frame {l : TL} {a b : List Id} {t x : Id} (h : Rep l (a ++ b)) (ht : t ∉ a ++ b) (hxt : x ≠ t)
    (hx : x ∉ a ++ b) : (insertAt l t b.head?).mem x = l.mem x := by
  obtain ⟨l1, e1, hh, htl, hs, hp, hn⟩ := insertLinks_rep h ht
  obtain ⟨l2, e2, hh2, ht2, hsa, hsb, hm⟩ := insertPrev_rep h ht hh htl hs hp hn
  have f1 : l1.mem x = l.mem x := by
    rw [← e1]; unfold insertLinks
    cases b.head? <;> simp only <;> rw [setNext_of_ne hxt, setPrev_of_ne hxt]
  have f2 : l2.mem x = l1.mem x := by
    rw [← e2]; unfold insertPrev
    rw [hp]
    cases e : a.getLast? with
    | none => rfl
    | some z =>
      refine setNext_of_ne ?_
      rintro rfl; exact hx (by simp [List.mem_of_getLast? e])
  unfold insertAt
  rw [e1, e2]
  unfold insertNext
  rw [hm, hn]
  cases e : b.head? with
  | none => simp only; rw [f2, f1]
  | some z =>
    show setPrev _ z _ x = _
    rw [setPrev_of_ne, f2, f1]
    rintro rfl; exact hx (by simp [List.mem_of_head? e])

theorem rep_congr {l : TL} {xs : List Id} (h : Rep l xs) {m : Id → Links} (hm : ∀ x ∈ xs, m x = l.mem x) :
    Rep { l with mem := m } xs := ⟨h.nodup, h.head, h.tail, seg_congr hm h.seg⟩

end Verif.Sched
