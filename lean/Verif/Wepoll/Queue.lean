import Mathlib.Data.List.Basic
import Mathlib.Data.List.Nodup

/-!
# The queues of src/wepoll.c (1447-1504)

Every epoll set of the Windows version has three queues: the sockets whose poll request must be renewed, the deleted sockets whose
request is still pending, and the poll groups.  A queue is a ring of nodes, each embedded in a larger object; the head is a node too.
The model has the two pointers of every node; a pointer is the number of a node (they are never null after `queue_node_init`).
-/

namespace Verif.Wepoll.Queue

/-- The fields `prev` and `next` of every node. -/
structure Mem where
  next : Nat → Nat
  prev : Nat → Nat

def Mem.setNext (m : Mem) (p x : Nat) : Mem := { m with next := fun z => if z = p then x else m.next z }

def Mem.setPrev (m : Mem) (p x : Nat) : Mem := { m with prev := fun z => if z = p then x else m.prev z }

/-- `queue_node_init`, src/wepoll.c:1451-1454 (and `queue_init` of the head, 1447-1449). -/
def nodeInit (m : Mem) (x : Nat) : Mem := (m.setPrev x x).setNext x x

/-- `queue__detach_node`, src/wepoll.c:1456-1459. -/
def detach (m : Mem) (x : Nat) : Mem :=
  let m := m.setNext (m.prev x) (m.next x)
  m.setPrev (m.next x) (m.prev x)

/-- `queue_is_enqueued`, src/wepoll.c:1502-1504. -/
def isEnqueued (m : Mem) (x : Nat) : Bool := decide (m.prev x ≠ x)

/-- `queue_is_empty`, src/wepoll.c:1498-1500. -/
def isEmpty (m : Mem) (h : Nat) : Bool := !isEnqueued m h

/-- `queue_first`, src/wepoll.c:1461-1463. -/
def first (m : Mem) (h : Nat) : Option Nat := if !isEmpty m h then some (m.next h) else none

/-- `queue_last`, src/wepoll.c:1465-1467. -/
def last (m : Mem) (h : Nat) : Option Nat := if !isEmpty m h then some (m.prev h) else none

/-- `queue_prepend`, src/wepoll.c:1469-1474. -/
def prepend (m : Mem) (h x : Nat) : Mem :=
  let m := m.setNext x (m.next h)
  let m := m.setPrev x h
  let m := m.setPrev (m.next x) x
  m.setNext h x

/-- `queue_append`, src/wepoll.c:1476-1481. -/
def append (m : Mem) (h x : Nat) : Mem :=
  let m := m.setNext x h
  let m := m.setPrev x (m.prev h)
  let m := m.setNext (m.prev x) x
  m.setPrev h x

/-- `queue_move_to_start`, src/wepoll.c:1483-1486. -/
def moveToStart (m : Mem) (h x : Nat) : Mem := prepend (detach m x) h x

/-- `queue_move_to_end`, src/wepoll.c:1488-1491. -/
def moveToEnd (m : Mem) (h x : Nat) : Mem := append (detach m x) h x

/-- `queue_remove`, src/wepoll.c:1493-1496. -/
def remove (m : Mem) (x : Nat) : Mem := nodeInit (detach m x) x

/-! ## Specification: lists -/

/-- The queues (by their heads) as lists, and the nodes which are initialised and in no queue. -/
structure Q where
  lists : Nat → List Nat
  free : Nat → Bool

inductive Op where
  | init (x : Nat)
  | prepend (h x : Nat)
  | append (h x : Nat)
  | moveToStart (h x : Nat)
  | moveToEnd (h x : Nat)
  | remove (x : Nat)

def Q.without (s : Q) (x : Nat) : Nat → List Nat := fun h => (s.lists h).filter (fun y => y ≠ x)

def setList (l : Nat → List Nat) (h : Nat) (v : List Nat) : Nat → List Nat := fun z => if z = h then v else l z

def setFree (f : Nat → Bool) (x : Nat) (b : Bool) : Nat → Bool := fun z => if z = x then b else f z

def spec (s : Q) : Op → Q
  | .init x => ⟨s.lists, setFree s.free x true⟩
  | .prepend h x => ⟨setList s.lists h (x :: s.lists h), setFree s.free x false⟩
  | .append h x => ⟨setList s.lists h (s.lists h ++ [x]), setFree s.free x false⟩
  | .moveToStart h x => ⟨setList (s.without x) h (x :: s.without x h), setFree s.free x false⟩
  | .moveToEnd h x => ⟨setList (s.without x) h (s.without x h ++ [x]), setFree s.free x false⟩
  | .remove x => ⟨s.without x, setFree s.free x true⟩

/-- In a queue. -/
def Q.inQ (s : Q) (x : Nat) : Prop := ∃ h, x ∈ s.lists h

/-- The rules of use: heads are heads for ever, a node is initialised or added only when it is in no queue, and moved or removed only
after it was initialised or added. -/
def Allowed (hd : Nat → Prop) (s : Q) : Op → Prop
  | .init x => ¬ hd x ∧ ¬ s.inQ x
  | .prepend h x => hd h ∧ ¬ hd x ∧ ¬ s.inQ x
  | .append h x => hd h ∧ ¬ hd x ∧ ¬ s.inQ x
  | .moveToStart h x => hd h ∧ ¬ hd x ∧ (s.inQ x ∨ s.free x = true)
  | .moveToEnd h x => hd h ∧ ¬ hd x ∧ (s.inQ x ∨ s.free x = true)
  | .remove x => ¬ hd x ∧ (s.inQ x ∨ s.free x = true)

def exec (m : Mem) : Op → Mem
  | .init x => nodeInit m x
  | .prepend h x => prepend m h x
  | .append h x => append m h x
  | .moveToStart h x => moveToStart m h x
  | .moveToEnd h x => moveToEnd m h x
  | .remove x => remove m x

/-- `a`, the nodes `l` and `b` are linked in this order, in both directions. -/
def Path (m : Mem) : Nat → List Nat → Nat → Prop
  | a, [], b => m.next a = b ∧ m.prev b = a
  | a, x :: l, b => m.next a = x ∧ m.prev x = a ∧ Path m x l b

theorem path_frame {m m' : Mem} : ∀ {l : List Nat} {a b : Nat}, (∀ z, z = a ∨ z ∈ l → m'.next z = m.next z) →
    (∀ z, z = b ∨ z ∈ l → m'.prev z = m.prev z) → Path m a l b → Path m' a l b := by
  intro l
  induction l with
  | nil =>
    intro a b h1 h2 h
    exact ⟨(h1 a (Or.inl rfl)).trans h.1, (h2 b (Or.inl rfl)).trans h.2⟩
  | cons x l ih =>
    intro a b h1 h2 h
    refine ⟨(h1 a (Or.inl rfl)).trans h.1, (h2 x (Or.inr (by simp))).trans h.2.1, ?_⟩
    apply ih _ _ h.2.2
    · intro z hz
      rcases hz with rfl | hz
      · exact h1 _ (Or.inr (by simp))
      · exact h1 _ (Or.inr (by simp [hz]))
    · intro z hz
      rcases hz with rfl | hz
      · exact h2 _ (Or.inl rfl)
      · exact h2 _ (Or.inr (by simp [hz]))

theorem path_last {m : Mem} : ∀ {l : List Nat} {a b : Nat}, Path m a l b → m.prev b = a ∨ m.prev b ∈ l := by
  intro l
  induction l with
  | nil => intro a b h; exact Or.inl h.2
  | cons x l ih =>
    intro a b h
    rcases ih h.2.2 with e | e
    · exact Or.inr (by simp [e])
    · exact Or.inr (by simp [e])

theorem path_split {m : Mem} : ∀ {A : List Nat} {B : List Nat} {a x b : Nat}, Path m a (A ++ x :: B) b ↔ Path m a A x ∧ Path m x B b := by
  intro A
  induction A with
  | nil => intro B a x b; simp [Path, and_assoc]
  | cons c A ih => intro B a x b; simp [Path, ih, and_assoc]

theorem path_head {m : Mem} {l : List Nat} {a b : Nat} (h : Path m a l b) : m.next a = b ∨ m.next a ∈ l := by
  cases l with
  | nil => exact Or.inl h.1
  | cons x l => exact Or.inr (by simp [h.1])

/-- Adding at the end. -/
theorem path_append {m : Mem} {x : Nat} : ∀ {l : List Nat} {a b : Nat}, Path m a l b → (a :: l).Nodup → (l ++ [b]).Nodup → x ≠ a → x ≠ b →
    x ∉ l → Path (append m b x) a (l ++ [x]) b := by
  intro l
  induction l with
  | nil =>
    intro a b h _ _ h1 h2 _
    simp only [Path, append, Mem.setNext, Mem.setPrev, List.nil_append, h.2]
    simp [h1, h2]
  | cons c l ih =>
    intro a b h n1 n2 h1 h2 h3
    have n1' := List.nodup_cons.1 n1
    rw [List.cons_append, List.nodup_cons] at n2
    simp only [List.mem_cons, not_or] at h3
    have hl := path_last h.2.2
    have hp : m.prev b ≠ a := by
      intro e
      rw [e] at hl
      exact n1'.1 (by rcases hl with q | q <;> simp [q])
    have hcb : c ≠ b := fun e => n2.1 (by simp [e])
    refine ⟨?_, ?_, ih h.2.2 n1'.2 n2.2 h3.1 h2 h3.2⟩
    · simp only [append, Mem.setNext, Mem.setPrev]
      simp [Ne.symm hp, Ne.symm h1, h.1]
    · simp only [append, Mem.setNext, Mem.setPrev]
      simp [hcb, Ne.symm h3.1, h.2.1]

/-- Adding at the start. -/
theorem path_prepend {m : Mem} {x : Nat} {l : List Nat} {a b : Nat} (h : Path m a l b) (n1 : (a :: l).Nodup) (n2 : (l ++ [b]).Nodup)
    (h1 : x ≠ a) (h2 : x ≠ b) (h3 : x ∉ l) : Path (prepend m a x) a (x :: l) b := by
  cases l with
  | nil =>
    simp only [Path, prepend, Mem.setNext, Mem.setPrev, h.1]
    simp [h1, h2]
  | cons c l =>
    simp only [List.mem_cons, not_or] at h3
    rw [List.nodup_cons, List.mem_cons, not_or] at n1
    rw [List.cons_append, List.nodup_cons] at n2
    refine ⟨?_, ?_, ?_, ?_, ?_⟩
    · simp [prepend, Mem.setNext, Mem.setPrev]
    · simp [prepend, Mem.setNext, Mem.setPrev, h.1, h3.1]
    · simp [prepend, Mem.setNext, Mem.setPrev, h1, h.1]
    · simp [prepend, Mem.setNext, Mem.setPrev, h.1]
    · refine path_frame ?_ ?_ h.2.2
      · intro z hz
        have z1 : z ≠ a := by rcases hz with rfl | hz; exact Ne.symm n1.1.1; exact fun e => n1.1.2 (e ▸ hz)
        have z2 : z ≠ x := by rcases hz with rfl | hz; exact Ne.symm h3.1; exact fun e => h3.2 (e ▸ hz)
        simp [prepend, Mem.setNext, Mem.setPrev, z1, z2]
      · intro z hz
        have z1 : z ≠ c := by
          rintro rfl
          exact n2.1 (by rcases hz with hz | hz <;> simp [hz])
        have z2 : z ≠ x := by rcases hz with rfl | hz; exact Ne.symm h2; exact fun e => h3.2 (e ▸ hz)
        simp [prepend, Mem.setNext, Mem.setPrev, z1, z2, h.1]

/-- Taking out. -/
theorem path_detach {m : Mem} {x : Nat} : ∀ {A B : List Nat} {a b : Nat}, Path m a (A ++ x :: B) b → (a :: (A ++ x :: B)).Nodup →
    ((A ++ x :: B) ++ [b]).Nodup → Path (detach m x) a (A ++ B) b := by
  intro A
  induction A with
  | nil =>
    intro B a b h n1 n2
    simp only [List.nil_append] at h n1 n2 ⊢
    obtain ⟨h1, h2, h3⟩ := h
    rw [List.nodup_cons, List.mem_cons, not_or] at n1
    rw [List.cons_append, List.nodup_cons] at n2
    have hxa : x ≠ a := Ne.symm n1.1.1
    have e1 : (detach m x).next = fun z => if z = a then m.next x else m.next z := by
      simp only [detach, Mem.setNext, Mem.setPrev, h2]
    have e2 : (detach m x).prev = fun z => if z = m.next x then a else m.prev z := by
      simp only [detach, Mem.setNext, Mem.setPrev, h2]
      simp [hxa]
    cases B with
    | nil =>
      refine ⟨?_, ?_⟩
      · rw [e1]; simp [h3.1]
      · rw [e2]; simp [h3.1]
    | cons y B =>
      obtain ⟨h4, h5, h6⟩ := h3
      refine ⟨?_, ?_, path_frame ?_ ?_ h6⟩
      · rw [e1]; simp [h4]
      · rw [e2]; simp [h4]
      · intro z hz
        have : z ≠ a := by
          rintro rfl
          exact n1.1.2 (by rcases hz with hz | hz <;> simp [hz])
        rw [e1]; simp [this]
      · intro z hz
        have : z ≠ y := by
          rintro rfl
          have := n2.2
          rw [List.cons_append, List.nodup_cons] at this
          exact this.1 (by rcases hz with hz | hz <;> simp [hz])
        rw [e2]; simp [h4, this]
  | cons c A ih =>
    intro B a b h n1 n2
    have hsp := path_split.1 h.2.2
    have hp := path_last hsp.1
    have hn := path_head hsp.2
    have n1' := List.nodup_cons.1 n1
    have n2' := n2
    rw [List.cons_append, List.cons_append, List.nodup_cons] at n2'
    have hpa : m.prev x ≠ a := by
      intro e
      rw [e] at hp
      exact n1'.1 (by rcases hp with q | q <;> simp [q])
    have hnc : m.next x ≠ c := by
      intro e
      rw [e] at hn
      exact n2'.1 (by rcases hn with q | q <;> simp [q])
    have hxp : x ≠ m.prev x := by
      intro e
      rw [← e] at hp
      have := n1'.2
      rw [List.nodup_append] at this
      exact this.2.2 x (by rcases hp with q | q <;> simp [q]) x (by simp) rfl
    refine ⟨?_, ?_, ih h.2.2 n1'.2 n2'.2⟩
    · simp only [detach, Mem.setNext, Mem.setPrev]
      simp [Ne.symm hpa, h.1]
    · simp only [detach, Mem.setNext, Mem.setPrev]
      simp [hxp, Ne.symm hnc, h.2.1]

/-- The pointers are those of the lists. -/
structure Inv (hd : Nat → Prop) (m : Mem) (s : Q) : Prop where
  path : ∀ h, hd h → Path m h (s.lists h) h
  none : ∀ h, ¬ hd h → s.lists h = []
  nodup : ∀ h, (s.lists h).Nodup
  uniq : ∀ h h' x, x ∈ s.lists h → x ∈ s.lists h' → h = h'
  nohd : ∀ h x, x ∈ s.lists h → ¬ hd x
  loop : ∀ x, s.free x = true → m.next x = x ∧ m.prev x = x
  freeq : ∀ x, s.free x = true → ¬ s.inQ x ∧ ¬ hd x

theorem Inv.n1 {hd m s} (i : Inv hd m s) {h : Nat} (hh : hd h) : (h :: s.lists h).Nodup :=
  List.nodup_cons.2 ⟨fun e => i.nohd h h e hh, i.nodup h⟩

theorem Inv.n2 {hd m s} (i : Inv hd m s) {h : Nat} (hh : hd h) : (s.lists h ++ [h]).Nodup := by
  rw [List.nodup_append]
  refine ⟨i.nodup h, by simp, ?_⟩
  intro a ha b hb
  rw [List.mem_singleton] at hb
  subst hb
  rintro rfl
  exact i.nohd a a ha hh

/-- Queues and single nodes that a change does not touch. -/
theorem path_other {hd m s} (i : Inv hd m s) {m' : Mem} {h : Nat} (hh : hd h)
    (h1 : ∀ z, z = h ∨ z ∈ s.lists h → m'.next z = m.next z) (h2 : ∀ z, z = h ∨ z ∈ s.lists h → m'.prev z = m.prev z) :
    Path m' h (s.lists h) h := path_frame h1 h2 (i.path h hh)

theorem Inv.next_mem {hd m s} (i : Inv hd m s) {h x : Nat} (hh : hd h) (hx : x = h ∨ x ∈ s.lists h) :
    m.next x = h ∨ m.next x ∈ s.lists h := by
  rcases hx with rfl | hx
  · exact path_head (i.path _ hh)
  · obtain ⟨A, B, e⟩ := List.append_of_mem hx
    have hp := i.path h hh
    rw [e, path_split] at hp
    rw [e]
    rcases path_head hp.2 with q | q
    · exact Or.inl q
    · exact Or.inr (by simp [q])

theorem Inv.prev_mem {hd m s} (i : Inv hd m s) {h x : Nat} (hh : hd h) (hx : x = h ∨ x ∈ s.lists h) :
    m.prev x = h ∨ m.prev x ∈ s.lists h := by
  rcases hx with rfl | hx
  · exact path_last (i.path _ hh)
  · obtain ⟨A, B, e⟩ := List.append_of_mem hx
    have hp := i.path h hh
    rw [e, path_split] at hp
    rw [e]
    rcases path_last hp.1 with q | q
    · exact Or.inl q
    · exact Or.inr (by simp [q])

/-- The nodes of two queues differ, heads included. -/
theorem Inv.apart {hd m s} (i : Inv hd m s) {h h' x y : Nat} (hh : hd h) (hh' : hd h') (hne : h ≠ h') (hx : x = h ∨ x ∈ s.lists h)
    (hy : y = h' ∨ y ∈ s.lists h') : x ≠ y := by
  rintro rfl
  rcases hx with rfl | hx <;> rcases hy with rfl | hy
  · exact hne rfl
  · exact i.nohd _ _ hy hh
  · exact i.nohd _ _ hx hh'
  · exact hne (i.uniq _ _ _ hx hy)

theorem Inv.apart_free {hd m s} (i : Inv hd m s) {h x y : Nat} (hh : hd h) (hx : x = h ∨ x ∈ s.lists h) (hy : s.free y = true) : x ≠ y := by
  rintro rfl
  rcases hx with rfl | hx
  · exact (i.freeq _ hy).2 hh
  · exact (i.freeq _ hy).1 ⟨h, hx⟩

theorem filter_self {l : List Nat} {x : Nat} (h : x ∉ l) : l.filter (fun y => y ≠ x) = l := by
  rw [List.filter_eq_self]
  intro a ha
  simpa using fun e : a = x => h (e ▸ ha)

theorem filter_out {A B : List Nat} {x : Nat} (h : (A ++ x :: B).Nodup) : (A ++ x :: B).filter (fun y => y ≠ x) = A ++ B := by
  have h5 := List.nodup_middle.1 h
  rw [List.nodup_cons] at h5
  rw [List.filter_append, List.filter_cons]
  simp only [ne_eq, not_true_eq_false, decide_false, Bool.false_eq_true, if_false]
  rw [← List.filter_append]
  exact filter_self h5.1

/-- After `queue__detach_node` the node is in no list, and its own pointers need not be right. -/
theorem detach_inv {hd m s x} (i : Inv hd m s) (ha : s.inQ x ∨ s.free x = true) :
    Inv hd (detach m x) ⟨s.without x, setFree s.free x false⟩ := by
  have base : (∀ h, ¬ hd h → s.without x h = []) ∧ (∀ h, (s.without x h).Nodup) ∧
      (∀ h y, y ∈ s.without x h ↔ y ∈ s.lists h ∧ y ≠ x) := by
    refine ⟨fun h hh => by simp [Q.without, i.none h hh], fun h => (i.nodup h).filter _, fun h y => by simp [Q.without]⟩
  obtain ⟨b1, b2, b3⟩ := base
  have hfree : ∀ y, setFree s.free x false y = true → y ≠ x ∧ s.free y = true := by
    intro y hy
    unfold setFree at hy
    split at hy
    · cases hy
    · exact ⟨‹_›, hy⟩
  have key : (∀ h, hd h → Path (detach m x) h (s.without x h) h) ∧
      (∀ y, y ≠ x → s.free y = true → (detach m x).next y = y ∧ (detach m x).prev y = y) := by
    by_cases hq : s.inQ x
    · obtain ⟨h0, hx0⟩ := hq
      have hh0 : hd h0 := by
        by_contra hc
        rw [i.none h0 hc] at hx0
        simp at hx0
      have hnm := i.next_mem hh0 (Or.inr hx0)
      have hpm := i.prev_mem hh0 (Or.inr hx0)
      obtain ⟨A, B, e⟩ := List.append_of_mem hx0
      have hxp : x ≠ m.prev x := by
        have hp := i.path h0 hh0
        rw [e, path_split] at hp
        intro q
        have n1 := i.n1 hh0
        rw [e, ← List.cons_append, List.nodup_append] at n1
        rcases path_last hp.1 with w | w
        · exact n1.2.2 x (by rw [q, w]; simp) x (by simp) rfl
        · exact n1.2.2 x (by rw [← q] at w; simp [w]) x (by simp) rfl
      have en : ∀ z, z ≠ m.prev x → (detach m x).next z = m.next z := by
        intro z hz
        simp [detach, Mem.setNext, Mem.setPrev, hz]
      have ep : ∀ z, z ≠ m.next x → (detach m x).prev z = m.prev z := by
        intro z hz
        simp [detach, Mem.setNext, Mem.setPrev, hxp, hz]
      constructor
      · intro h hh
        by_cases e0 : h = h0
        · subst e0
          have n1 := i.n1 hh
          have n2 := i.n2 hh
          have hp := i.path h hh
          have nn := i.nodup h
          rw [e] at n1 n2 hp nn
          rw [Q.without, e, filter_out nn]
          exact path_detach hp n1 n2
        · have hxn : x ∉ s.lists h := fun q => e0 (i.uniq _ _ _ q hx0)
          rw [Q.without, filter_self hxn]
          exact path_other i hh (fun z hz => en z (i.apart hh hh0 e0 hz hpm)) (fun z hz => ep z (i.apart hh hh0 e0 hz hnm))
      · intro y _ hf
        rw [en y (Ne.symm (i.apart_free hh0 hpm hf)), ep y (Ne.symm (i.apart_free hh0 hnm hf))]
        exact i.loop y hf
    · have hf : s.free x = true := ha.resolve_left hq
      obtain ⟨l1, l2⟩ := i.loop x hf
      have en : (detach m x).next = m.next := by
        funext z
        simp only [detach, Mem.setNext, Mem.setPrev, l1, l2]
        split
        · rename_i hz; rw [hz, l1]
        · rfl
      have ep : (detach m x).prev = m.prev := by
        funext z
        simp only [detach, Mem.setNext, Mem.setPrev, l1, l2]
        simp only [if_true]
        split
        · rename_i hz; rw [hz, l2]
        · rfl
      have hw : s.without x = s.lists := by
        funext h
        exact filter_self (fun q => hq ⟨h, q⟩)
      rw [hw]
      constructor
      · intro h hh
        exact path_other i hh (fun z _ => by rw [en]) (fun z _ => by rw [ep])
      · intro y _ hy
        rw [en, ep]
        exact i.loop y hy
  refine ⟨key.1, b1, b2, ?_, ?_, ?_, ?_⟩
  · intro h h' y hy hy'
    exact i.uniq _ _ _ ((b3 h y).1 hy).1 ((b3 h' y).1 hy').1
  · intro h y hy
    exact i.nohd _ _ ((b3 h y).1 hy).1
  · intro y hy
    exact key.2 y (hfree y hy).1 (hfree y hy).2
  · intro y hy
    refine ⟨?_, (i.freeq y (hfree y hy).2).2⟩
    rintro ⟨h, hh⟩
    exact (i.freeq y (hfree y hy).2).1 ⟨h, ((b3 h y).1 hh).1⟩

theorem without_notin (s : Q) (x : Nat) (f : Nat → Bool) : ¬ (⟨s.without x, f⟩ : Q).inQ x := by
  rintro ⟨h, hh⟩
  simp [Q.without] at hh

/-- Putting a node, which is in no queue, into one. -/
theorem insert_inv {hd m s h x} {m' : Mem} {l : List Nat} (i : Inv hd m s) (hh : hd h) (hx : ¬ hd x) (hq : ¬ s.inQ x)
    (hp : Path m' h l h) (hl : ∀ y, y ∈ l ↔ y = x ∨ y ∈ s.lists h) (hn : l.Nodup)
    (h1 : ∀ z, z ≠ x → z ≠ h → z ∉ s.lists h → m'.next z = m.next z ∧ m'.prev z = m.prev z) :
    Inv hd m' ⟨setList s.lists h l, setFree s.free x false⟩ := by
  have hfree : ∀ y, setFree s.free x false y = true → y ≠ x ∧ s.free y = true := by
    intro y hy
    unfold setFree at hy
    split at hy
    · cases hy
    · exact ⟨‹_›, hy⟩
  have hmem : ∀ h' y, y ∈ setList s.lists h l h' → (h' = h ∧ y = x) ∨ y ∈ s.lists h' := by
    intro h' y hy
    unfold setList at hy
    split at hy
    · rename_i e
      subst e
      rcases (hl y).1 hy with q | q
      · exact Or.inl ⟨rfl, q⟩
      · exact Or.inr q
    · exact Or.inr hy
  refine ⟨?_, ?_, ?_, ?_, ?_, ?_, ?_⟩
  · intro h' hh'
    show Path m' h' (setList s.lists h l h') h'
    unfold setList
    split
    · rename_i e
      rw [e]
      exact hp
    · rename_i e
      have hz : ∀ z, z = h' ∨ z ∈ s.lists h' → m'.next z = m.next z ∧ m'.prev z = m.prev z := by
        intro z hz
        refine h1 z ?_ ?_ ?_
        · rintro rfl
          rcases hz with rfl | hz
          · exact hx hh'
          · exact hq ⟨_, hz⟩
        · exact i.apart hh' hh e hz (Or.inl rfl)
        · intro q
          exact i.apart hh' hh e hz (Or.inr q) rfl
      exact path_other i hh' (fun z q => (hz z q).1) (fun z q => (hz z q).2)
  · intro h' hh'
    show setList s.lists h l h' = []
    unfold setList
    split
    · rename_i e; rw [e] at hh'; exact absurd hh hh'
    · exact i.none h' hh'
  · intro h'
    show (setList s.lists h l h').Nodup
    unfold setList
    split
    · exact hn
    · exact i.nodup h'
  · intro a b y ha hb
    rcases hmem a y ha with ⟨a1, a2⟩ | a1 <;> rcases hmem b y hb with ⟨b1, b2⟩ | b1
    · rw [a1, b1]
    · rw [a2] at b1; exact absurd ⟨b, b1⟩ hq
    · rw [b2] at a1; exact absurd ⟨a, a1⟩ hq
    · exact i.uniq _ _ _ a1 b1
  · intro a y ha
    rcases hmem a y ha with ⟨_, a2⟩ | a1
    · rw [a2]; exact hx
    · exact i.nohd _ _ a1
  · intro y hy
    obtain ⟨y1, y2⟩ := hfree y hy
    have := h1 y y1 (Ne.symm (i.apart_free hh (Or.inl rfl) y2)) (fun q => (i.freeq y y2).1 ⟨h, q⟩)
    rw [this.1, this.2]
    exact i.loop y y2
  · intro y hy
    obtain ⟨y1, y2⟩ := hfree y hy
    refine ⟨?_, (i.freeq y y2).2⟩
    rintro ⟨a, ha⟩
    rcases hmem a y ha with ⟨_, a2⟩ | a1
    · exact y1 a2
    · exact (i.freeq y y2).1 ⟨a, a1⟩

theorem prepend_inv {hd m s h x} (i : Inv hd m s) (hh : hd h) (hx : ¬ hd x) (hq : ¬ s.inQ x) :
    Inv hd (prepend m h x) ⟨setList s.lists h (x :: s.lists h), setFree s.free x false⟩ := by
  have hxh : x ≠ h := fun e => hx (e ▸ hh)
  have hxl : x ∉ s.lists h := fun e => hq ⟨h, e⟩
  refine insert_inv i hh hx hq (path_prepend (i.path h hh) (i.n1 hh) (i.n2 hh) hxh hxh hxl) (by simp)
    (List.nodup_cons.2 ⟨hxl, i.nodup h⟩) ?_
  intro z z1 z2 z3
  have hn := i.next_mem hh (Or.inl rfl)
  have hz : z ≠ m.next h := by
    rintro rfl
    rcases hn with q | q
    · exact z2 q
    · exact z3 q
  simp [prepend, Mem.setNext, Mem.setPrev, z1, z2, hz]

theorem append_inv {hd m s h x} (i : Inv hd m s) (hh : hd h) (hx : ¬ hd x) (hq : ¬ s.inQ x) :
    Inv hd (append m h x) ⟨setList s.lists h (s.lists h ++ [x]), setFree s.free x false⟩ := by
  have hxh : x ≠ h := fun e => hx (e ▸ hh)
  have hxl : x ∉ s.lists h := fun e => hq ⟨h, e⟩
  refine insert_inv i hh hx hq (path_append (i.path h hh) (i.n1 hh) (i.n2 hh) hxh hxh hxl) (by intro y; simp [or_comm])
    ?_ ?_
  · rw [List.nodup_append]
    refine ⟨i.nodup h, by simp, ?_⟩
    intro a ha b hb
    rw [List.mem_singleton] at hb
    subst hb
    exact fun e => hxl (e ▸ ha)
  intro z z1 z2 z3
  have hn := i.prev_mem hh (Or.inl rfl)
  have hz : z ≠ m.prev h := by
    rintro rfl
    rcases hn with q | q
    · exact z2 q
    · exact z3 q
  simp [append, Mem.setNext, Mem.setPrev, z1, z2, hz]

theorem init_inv {hd m s x} (i : Inv hd m s) (hx : ¬ hd x) (hq : ¬ s.inQ x) : Inv hd (nodeInit m x) ⟨s.lists, setFree s.free x true⟩ := by
  have en : ∀ z, z ≠ x → (nodeInit m x).next z = m.next z ∧ (nodeInit m x).prev z = m.prev z := by
    intro z hz
    simp [nodeInit, Mem.setNext, Mem.setPrev, hz]
  refine ⟨?_, i.none, i.nodup, i.uniq, i.nohd, ?_, ?_⟩
  · intro h hh
    have hz : ∀ z, z = h ∨ z ∈ s.lists h → z ≠ x := by
      rintro z (rfl | hz) rfl
      · exact hx hh
      · exact hq ⟨h, hz⟩
    exact path_other i hh (fun z q => (en z (hz z q)).1) (fun z q => (en z (hz z q)).2)
  · intro y hy
    by_cases e : y = x
    · subst e
      simp [nodeInit, Mem.setNext, Mem.setPrev]
    · rw [(en y e).1, (en y e).2]
      refine i.loop y ?_
      simpa [setFree, e] using hy
  · intro y hy
    by_cases e : y = x
    · subst e
      exact ⟨hq, hx⟩
    · exact i.freeq y (by simpa [setFree, e] using hy)

theorem setFree_twice (f : Nat → Bool) (x : Nat) (a b : Bool) : setFree (setFree f x a) x b = setFree f x b := by
  funext z
  unfold setFree
  split <;> rfl

theorem step_inv {hd m s o} (i : Inv hd m s) (ha : Allowed hd s o) : Inv hd (exec m o) (spec s o) := by
  cases o with
  | init x => exact init_inv i ha.1 ha.2
  | prepend h x => exact prepend_inv i ha.1 ha.2.1 ha.2.2
  | append h x => exact append_inv i ha.1 ha.2.1 ha.2.2
  | moveToStart h x =>
    have := prepend_inv (detach_inv i ha.2.2) ha.1 ha.2.1 (without_notin s x _)
    rw [setFree_twice] at this
    exact this
  | moveToEnd h x =>
    have := append_inv (detach_inv i ha.2.2) ha.1 ha.2.1 (without_notin s x _)
    rw [setFree_twice] at this
    exact this
  | remove x =>
    have := init_inv (detach_inv i ha.2) ha.1 (without_notin s x _)
    rw [setFree_twice] at this
    exact this

def AllowedAll (hd : Nat → Prop) (s : Q) : List Op → Prop
  | [] => True
  | o :: os => Allowed hd s o ∧ AllowedAll hd (spec s o) os

/-- All queues empty, no node initialised. -/
def Q.start : Q := ⟨fun _ => [], fun _ => false⟩

/-- The heads initialised (`queue_init`), everything else arbitrary. -/
def Started (hd : Nat → Prop) (m : Mem) : Prop := ∀ h, hd h → m.next h = h ∧ m.prev h = h

theorem inv_start {hd m} (h : Started hd m) : Inv hd m Q.start :=
  ⟨fun x hx => h x hx, fun _ _ => rfl, fun _ => List.nodup_nil, by simp [Q.start], by simp [Q.start], by simp [Q.start], by simp [Q.start]⟩

theorem all_inv : ∀ (os : List Op) {hd : Nat → Prop} {m : Mem} {s : Q}, Inv hd m s → AllowedAll hd s os →
    Inv hd (os.foldl exec m) (os.foldl spec s) := by
  intro os
  induction os with
  | nil => intro hd m s i _; exact i
  | cons o os ih => intro hd m s i ha; exact ih (step_inv i ha.1) ha.2

/-- **C147.**  After any allowed operations on any number of queues, whatever the nodes held before: `queue_first` and `queue_last` give
the first and last element of the list, `queue_is_empty` tells whether it is empty, and `queue_is_enqueued` whether an initialised
node is in a queue. -/
theorem queues_are_lists {hd : Nat → Prop} {m : Mem} (hm : Started hd m) (os : List Op) (ha : AllowedAll hd Q.start os) :
    (∀ h, hd h → first (os.foldl exec m) h = ((os.foldl spec Q.start).lists h).head? ∧
      last (os.foldl exec m) h = ((os.foldl spec Q.start).lists h).getLast? ∧
      (isEmpty (os.foldl exec m) h = true ↔ (os.foldl spec Q.start).lists h = [])) ∧
    (∀ x, (os.foldl spec Q.start).inQ x → isEnqueued (os.foldl exec m) x = true) ∧
    (∀ x, (os.foldl spec Q.start).free x = true → isEnqueued (os.foldl exec m) x = false) := by
  have i := all_inv os (inv_start hm) ha
  generalize os.foldl exec m = m' at i ⊢
  generalize os.foldl spec Q.start = s at i ⊢
  have hlast : ∀ {l : List Nat} {a b : Nat}, Path m' a l b → (a :: l).getLast? = some (m'.prev b) := by
    intro l
    induction l with
    | nil => intro a b h; simp [h.2]
    | cons x l ih =>
      intro a b h
      rw [List.getLast?_cons_cons]
      exact ih h.2.2
  refine ⟨?_, ?_, ?_⟩
  · intro h hh
    have hp := i.path h hh
    cases hl : s.lists h with
    | nil =>
      rw [hl] at hp
      simp [first, last, isEmpty, isEnqueued, hp.2]
    | cons x l =>
      have hne : m'.prev h ≠ h := by
        have := hlast hp
        have hn := i.n1 hh
        rw [hl] at this hn
        rw [List.getLast?_cons_cons] at this
        intro e
        rw [e] at this
        exact (List.nodup_cons.1 hn).1 (List.mem_of_getLast? this)
      have hl' := hlast hp
      rw [hl] at hp hl'
      rw [List.getLast?_cons_cons] at hl'
      simp [first, last, isEmpty, isEnqueued, hne, hp.1, hl']
  · rintro x ⟨h, hx⟩
    have hh : hd h := by
      by_contra hc
      rw [i.none h hc] at hx
      simp at hx
    obtain ⟨A, B, e⟩ := List.append_of_mem hx
    have hp := i.path h hh
    have n1 := i.n1 hh
    rw [e, path_split] at hp
    rw [e, ← List.cons_append, List.nodup_append] at n1
    simp only [isEnqueued, decide_eq_true_eq]
    intro q
    rcases path_last hp.1 with w | w
    · exact n1.2.2 x (by rw [← q, w]; simp) x (by simp) rfl
    · exact n1.2.2 x (by rw [q] at w; simp [w]) x (by simp) rfl
  · intro x hx
    simp [isEnqueued, (i.loop x hx).2]

/-- **C147.**  Walking a queue forwards from the head by `next` meets exactly the elements of the list, in order, and ends at the
head; walking backwards meets them in reverse. -/
def walk (f : Nat → Nat) : Nat → Nat → List Nat
  | 0, _ => []
  | n + 1, x => f x :: walk f n (f x)

theorem queue_walk {hd : Nat → Prop} {m : Mem} (hm : Started hd m) (os : List Op) (ha : AllowedAll hd Q.start os) (h : Nat) (hh : hd h) :
    walk (os.foldl exec m).next (((os.foldl spec Q.start).lists h).length + 1) h = (os.foldl spec Q.start).lists h ++ [h] ∧
    walk (os.foldl exec m).prev (((os.foldl spec Q.start).lists h).length + 1) h = ((os.foldl spec Q.start).lists h).reverse ++ [h] := by
  have i := all_inv os (inv_start hm) ha
  generalize os.foldl exec m = m' at i ⊢
  generalize os.foldl spec Q.start = s at i ⊢
  have hp := i.path h hh
  constructor
  · have : ∀ {l : List Nat} {a b : Nat}, Path m' a l b → walk m'.next (l.length + 1) a = l ++ [b] := by
      intro l
      induction l with
      | nil => intro a b q; simp [walk, q.1]
      | cons x l ih =>
        intro a b q
        rw [List.length_cons, walk, q.1, ih q.2.2]
        rfl
    exact this hp
  · have : ∀ {l : List Nat} {a b : Nat}, Path m' a l b → ∀ n, walk m'.prev (l.length + 1 + n) b = l.reverse ++ a :: walk m'.prev n a := by
      intro l
      induction l with
      | nil =>
        intro a b q n
        rw [List.length_nil, show 0 + 1 + n = n + 1 by omega, walk, q.2]
        rfl
      | cons x l ih =>
        intro a b q n
        rw [List.length_cons, show l.length + 1 + 1 + n = l.length + 1 + (n + 1) by omega, ih q.2.2, walk, q.2.1]
        simp
    have := this hp 0
    simpa [walk] using this

/-- Two queues with heads 0 and 1. -/
example : AllowedAll (fun h => h < 2) Q.start
    [.init 5, .append 0 5, .prepend 0 6, .append 1 7, .moveToEnd 0 6, .moveToStart 1 5, .remove 7, .append 0 7] := by
  refine ⟨⟨by decide, ?_⟩, ⟨by decide, by decide, ?_⟩, ⟨by decide, by decide, ?_⟩, ⟨by decide, by decide, ?_⟩,
    ⟨by decide, by decide, Or.inl ⟨0, by decide⟩⟩, ⟨by decide, by decide, Or.inl ⟨0, by decide⟩⟩, ⟨by decide, Or.inl ⟨1, by decide⟩⟩,
    ⟨by decide, by decide, ?_⟩, trivial⟩ <;>
  · rintro ⟨h, hh⟩
    revert hh
    rcases h with _ | _ | h <;> simp [spec, Q.start, Q.without, setList]

example : ([.init 5, .append 0 5, .prepend 0 6, .append 1 7, .moveToEnd 0 6, .moveToStart 1 5, .remove 7, .append 0 7].foldl spec Q.start).lists 0 =
    [6, 7] := by decide

example : walk ([.init 5, .append 0 5, .prepend 0 6, .append 1 7, .moveToEnd 0 6, .moveToStart 1 5, .remove 7, .append 0 7].foldl exec
    ⟨fun x => x, fun x => x⟩).next 3 0 = [6, 7, 0] := by decide

end Verif.Wepoll.Queue
