import Mathlib.Data.List.Basic
import Verif.Basic

/-!
# Reading directories on Windows (`include/compat/dirent_msvc.h`), C196, C197

The search handles of Windows are an oracle: `FindFirstFileW` either fails or opens a search over a list of entries, of which it gives
the first; `FindNextFileW` gives the next one or tells that there is none (or that it failed, which the code treats alike).

Simplified: names are not converted here; an entry is the whole `WIN32_FIND_DATAW`.  Memory for the stream is there.
-/

namespace Verif.Win.Dirent

/-- `struct _WDIR` (84-90), without the pattern. -/
structure Dir (α : Type) where
  data : Option α := none
  cached : Bool := false
  /-- `none` is `INVALID_HANDLE_VALUE` -/
  handle : Option Nat := none

/-- The searches of Windows: the handles that are open, each with what is still to come.  `bad`: a handle was used that is not open. -/
structure Sys (α : Type) where
  next : Nat := 0
  opened : List (Nat × List α) := []
  bad : Bool := false

/-- `FindFirstFileW` over the listing `l`; it fails if there is none or it is empty (a directory has at least `.` and `..`, a drive may
have nothing). -/
def findFirst {α : Type} (y : Sys α) : Option (List α) → Sys α × Option (Nat × α)
  | some (x :: r) => ({ y with next := y.next + 1, opened := (y.next, r) :: y.opened }, some (y.next, x))
  | _ => (y, none)

/-- `FindNextFileW`. -/
def findNext {α : Type} (y : Sys α) (h : Nat) : Sys α × Option α :=
  match y.opened.lookup h with
  | none => ({ y with bad := true }, none)
  | some [] => (y, none)
  | some (x :: r) => ({ y with opened := y.opened.map fun p => if p.1 = h then (h, r) else p }, some x)

/-- `FindClose`. -/
def findClose {α : Type} (y : Sys α) (h : Nat) : Sys α :=
  match y.opened.lookup h with
  | none => { y with bad := true }
  | some _ => { y with opened := y.opened.filter fun p => p.1 ≠ h }

/-- `dirent_first` (354-375). -/
def first {α : Type} (y : Sys α) (d : Dir α) (l : Option (List α)) : Sys α × Dir α :=
  match findFirst y l with
  | (y', some (h, x)) => (y', { data := some x, cached := true, handle := some h })
  | (y', none) => (y', { d with handle := none, cached := false })

/-- `dirent_next` (378-411); the entry is the one in `data`. -/
def next {α : Type} (y : Sys α) (d : Dir α) : Sys α × Dir α × Option α :=
  if d.cached then (y, { d with cached := false }, d.data)
  else
    match d.handle with
    | none => (y, d, none)
    | some h =>
      match findNext y h with
      | (y', some x) => (y', { d with data := some x }, some x)
      | (y', none) => (findClose y' h, { d with handle := none }, none)

/-- `_wrewinddir` (339-351). -/
def rewind {α : Type} (y : Sys α) (d : Dir α) (l : Option (List α)) : Sys α × Dir α :=
  match d.handle with
  | some h => first (findClose y h) d l
  | none => first y d l

/-- `_wclosedir` (305-333): the searches afterwards. -/
def close {α : Type} (y : Sys α) (d : Dir α) : Sys α :=
  match d.handle with
  | some h => findClose y h
  | none => y

/-- `_wopendir` (148-238) after the pattern has been made (205-213, 231-237). -/
def opendir {α : Type} (y : Sys α) (l : Option (List α)) : Sys α × Option (Dir α) :=
  match first y {} l with
  | (y', d) => if d.cached then (y', some d) else (close y' d, none)

/-- What a program does with a stream. -/
inductive Op (α : Type) where
  | read
  | rewind (l : Option (List α))

/-- One call; what `readdir` returned. -/
def step {α : Type} (y : Sys α) (d : Dir α) : Op α → Sys α × Dir α × Option (Option α)
  | .read => match next y d with
    | (y', d', r) => (y', d', some r)
  | .rewind l => match rewind y d l with
    | (y', d') => (y', d', none)

/-- All calls: what the `readdir`s returned, in order. -/
def run {α : Type} (y : Sys α) (d : Dir α) : List (Op α) → Sys α × Dir α × List (Option α)
  | [] => (y, d, [])
  | o :: t => match step y d o with
    | (y', d', r) => match run y' d' t with
      | (y'', d'', rs) => (y'', d'', r.toList ++ rs)

/-! ## What a program may expect -/

/-- The entries of the listing one after the other, then nothing, for ever; rewinding begins a new listing. -/
def expect {α : Type} (l : List α) : List (Op α) → List (Option α)
  | [] => []
  | .read :: t => l.head? :: expect l.tail t
  | .rewind l' :: t => expect (l'.getD []) t

/-! ## The invariant -/

/-- The stream's handle is open, with the rest of the listing `l` to come; `others` are the searches of other streams. -/
def Inv {α : Type} (others : List (Nat × List α)) (y : Sys α) (d : Dir α) (l : List α) : Prop :=
  y.bad = false ∧ (∀ p ∈ others, p.1 < y.next) ∧
  match d.handle with
  | none => d.cached = false ∧ l = [] ∧ y.opened.Perm others
  | some h => h < y.next ∧ (∀ p ∈ others, p.1 ≠ h) ∧ ∃ rest, y.opened.Perm ((h, rest) :: others) ∧
      if d.cached then ∃ x, d.data = some x ∧ l = x :: rest else l = rest

theorem lookup_perm {α : Type} {opened others : List (Nat × List α)} {h : Nat} {rest : List α}
    (hp : opened.Perm ((h, rest) :: others)) (hn : ∀ p ∈ others, p.1 ≠ h) : opened.lookup h = some rest := by
  have hm : (h, rest) ∈ opened := hp.mem_iff.2 (by simp)
  have huniq : ∀ r, (h, r) ∈ opened → r = rest := by
    intro r hr
    have := hp.mem_iff.1 hr
    rcases List.mem_cons.1 this with h1 | h1
    · simpa using h1
    · exact absurd rfl (hn _ h1)
  cases hl : opened.lookup h with
  | none =>
    rw [List.lookup_eq_none_iff] at hl
    have := hl _ hm
    simp at this
  | some r =>
    rw [List.lookup_eq_some_iff] at hl
    obtain ⟨a, b, rfl, _⟩ := hl
    rw [huniq r (by simp)]

theorem close_inv {α : Type} {others : List (Nat × List α)} {y : Sys α} {d : Dir α} {l : List α} (hI : Inv others y d l) :
    (close y d).bad = false ∧ (close y d).opened.Perm others ∧ (close y d).next = y.next := by
  obtain ⟨h1, h2, h3⟩ := hI
  unfold close
  split at h3
  · next hh => rw [hh]; exact ⟨h1, h3.2.2, rfl⟩
  · next h hh =>
    rw [hh]
    obtain ⟨_, hn, rest, hp, _⟩ := h3
    have hl := lookup_perm hp hn
    simp only [findClose, hl]
    refine ⟨h1, ?_, trivial⟩
    have := hp.filter (fun p => decide (p.1 ≠ h))
    rw [List.filter_cons_of_neg (by simp)] at this
    have ho : others.filter (fun p => decide (p.1 ≠ h)) = others := List.filter_eq_self.2 (by simpa using hn)
    rw [ho] at this
    exact this

theorem first_inv {α : Type} {others : List (Nat × List α)} {y : Sys α} (d : Dir α) (l : Option (List α)) (hb : y.bad = false)
    (ho : ∀ p ∈ others, p.1 < y.next) (hp : y.opened.Perm others) :
    Inv others (first y d l).1 (first y d l).2 (l.getD []) := by
  unfold first
  match l with
  | none => exact ⟨hb, ho, rfl, rfl, hp⟩
  | some [] => exact ⟨hb, ho, rfl, rfl, hp⟩
  | some (x :: r) =>
    refine ⟨hb, fun p hp => Nat.lt_succ_of_lt (ho p hp), ?_⟩
    refine ⟨Nat.lt_succ_self _, fun p hp => Nat.ne_of_lt (ho p hp), r, hp.cons _, ?_⟩
    exact ⟨x, rfl, rfl⟩

theorem next_inv {α : Type} {others : List (Nat × List α)} {y : Sys α} {d : Dir α} {l : List α} (hI : Inv others y d l) :
    Inv others (next y d).1 (next y d).2.1 l.tail ∧ (next y d).2.2 = l.head? := by
  obtain ⟨h1, h2, h3⟩ := hI
  obtain ⟨data, cached, handle⟩ := d
  cases handle with
  | none =>
    obtain ⟨hc, rfl, hp⟩ := h3
    dsimp only at hc; subst hc
    exact ⟨⟨h1, h2, rfl, rfl, hp⟩, rfl⟩
  | some h =>
    obtain ⟨hlt, hn, rest, hp, hl⟩ := h3
    cases cached with
    | true =>
      obtain ⟨x, hx, rfl⟩ := hl
      dsimp only at hx; subst hx
      exact ⟨⟨h1, h2, hlt, hn, rest, hp, rfl⟩, rfl⟩
    | false =>
      replace hl : l = rest := hl
      subst hl
      have hlk := lookup_perm hp hn
      cases l with
      | nil =>
        have hy : findNext y h = (y, none) := by simp [findNext, hlk]
        have hc := close_inv (d := { data, cached := false, handle := some h }) (l := []) ⟨h1, h2, hlt, hn, [], hp, rfl⟩
        simp only [next, hy, Bool.false_eq_true, if_false]
        refine ⟨⟨hc.1, ?_, rfl, rfl, hc.2.1⟩, rfl⟩
        intro p hp'
        have := h2 p hp'
        rw [show (findClose y h).next = y.next from hc.2.2]
        exact this
      | cons x r =>
        have hy : findNext y h = ({ y with opened := y.opened.map fun p => if p.1 = h then (h, r) else p }, some x) := by
          simp [findNext, hlk]
        simp only [next, hy, Bool.false_eq_true, if_false]
        refine ⟨⟨h1, h2, hlt, hn, r, ?_, rfl⟩, rfl⟩
        have := hp.map (fun p => if p.1 = h then (h, r) else p)
        simp only [List.map_cons, if_true] at this
        refine this.trans (List.Perm.of_eq ?_)
        congr 1
        conv => rhs; rw [← List.map_id others]
        exact List.map_congr_left fun p hp' => by simp [hn p hp']

theorem rewind_inv {α : Type} {others : List (Nat × List α)} {y : Sys α} {d : Dir α} {l : List α} (hI : Inv others y d l)
    (l' : Option (List α)) : Inv others (rewind y d l').1 (rewind y d l').2 (l'.getD []) := by
  have hc := close_inv hI
  have hr : rewind y d l' = first (close y d) d l' := by
    unfold rewind close
    split <;> rfl
  rw [hr]
  refine first_inv d l' hc.1 ?_ hc.2.1
  rw [hc.2.2]
  exact hI.2.1

theorem run_inv {α : Type} {others : List (Nat × List α)} (ops : List (Op α)) : ∀ {y : Sys α} {d : Dir α} {l : List α},
    Inv others y d l → (∃ l', Inv others (run y d ops).1 (run y d ops).2.1 l') ∧ (run y d ops).2.2 = expect l ops := by
  induction ops with
  | nil => intro y d l hI; exact ⟨⟨l, hI⟩, rfl⟩
  | cons o t ih =>
    intro y d l hI
    cases o with
    | read =>
      obtain ⟨h1, h2⟩ := next_inv hI
      obtain ⟨h3, h4⟩ := ih h1
      refine ⟨h3, ?_⟩
      simp only [run, step, expect]
      rw [h4, h2]
      rfl
    | rewind l' =>
      obtain ⟨h3, h4⟩ := ih (rewind_inv hI l')
      refine ⟨h3, ?_⟩
      simp only [run, step, expect]
      rw [h4]
      rfl

/-- A stream gives the entries of its listing, each once and in order, then nothing for ever; rewinding begins again with the listing
of that moment (nothing if it fails).  Whatever other searches are open: handles are only used while they are open, and when the
stream is closed exactly the other searches are left. -/
theorem stream {α : Type} (y : Sys α) (hb : y.bad = false) (hy : ∀ p ∈ y.opened, p.1 < y.next) (l : Option (List α)) (ops : List (Op α)) :
    match opendir y l with
    | (y', none) => (l = none ∨ l = some []) ∧ y'.bad = false ∧ y'.opened.Perm y.opened
    | (y', some d) => ∃ x r, l = some (x :: r) ∧ (run y' d ops).2.2 = expect (x :: r) ops ∧
        (close (run y' d ops).1 (run y' d ops).2.1).bad = false ∧
        (close (run y' d ops).1 (run y' d ops).2.1).opened.Perm y.opened := by
  match l with
  | none => exact ⟨Or.inl rfl, hb, List.Perm.refl _⟩
  | some [] => exact ⟨Or.inr rfl, hb, List.Perm.refl _⟩
  | some (x :: r) =>
    have hI := first_inv {} (some (x :: r)) hb hy (List.Perm.refl _)
    obtain ⟨⟨l', h1⟩, h2⟩ := run_inv ops hI
    obtain ⟨h3, h4, _⟩ := close_inv h1
    exact ⟨x, r, rfl, h2, h3, h4⟩

/-- `expect` in other words: as many reads as there are entries give all of them, further ones nothing. -/
theorem expect_reads {α : Type} (l : List α) (n : Nat) :
    expect l (List.replicate (l.length + n) .read) = l.map some ++ List.replicate n none := by
  induction l with
  | nil =>
    simp only [List.length_nil, Nat.zero_add, List.map_nil, List.nil_append]
    induction n with
    | zero => rfl
    | succ n ih => rw [List.replicate_succ, List.replicate_succ, expect, ← ih]; rfl
  | cons x t ih =>
    rw [List.length_cons, Nat.add_right_comm, List.replicate_succ, expect, List.tail_cons, ih]; rfl

example : (run (opendir {} (some [1, 2])).1 ((opendir ({} : Sys Nat) (some [1, 2])).2.getD {})
    [.read, .rewind (some [3]), .read, .read, .read]).2.2 = [some 1, some 3, none, none] := by decide

/-! ## C197: the pattern -/

/-- What the second `GetFullPathNameW` (182) does. -/
inductive Full where
  | failed
  /-- the path and its end are put into the buffer, the length of the path is returned -/
  | path (p : List Nat)
  /-- too long: nothing is written, the number of places needed is returned -/
  | needs (m : Nat)

/-- A buffer of `wchar_t`; `none` is a place never written to. -/
abbrev Buf := List (Option Nat)

def put (b : Buf) (i c : Nat) : Res Buf := if i < b.length then .ok (b.set i (some c)) else .ub

def get (b : Buf) (i : Nat) : Res Nat :=
  match b[i]? with
  | some (some c) => .ok c
  | _ => .ub

/-- The separators (189-195). -/
def isSep (c : Nat) : Bool := c == 92 || c == 47 || c == 58

/-- 186-203: the end of the pattern is put behind the first `n` places. -/
def finish (b : Buf) (n : Nat) : Res Buf :=
  match get b (n - 1) with
  | .ub => .ub
  | .ok c =>
    if isSep c then
      match put b n 42 with
      | .ub => .ub
      | .ok b => put b (n + 1) 0
    else
      match put b n 92 with
      | .ub => .ub
      | .ok b => match put b (n + 1) 42 with
        | .ub => .ub
        | .ok b => put b (n + 2) 0

/-- `_wopendir` 171-203: `n` is what the first `GetFullPathNameW` gives, so that the buffer has `2n + 16` bytes, `n + 8` places.
`none`: the path cannot be had. -/
def pattern (n : Nat) : Full → Res (Option Buf)
  | .failed => .ok none
  | .path p =>
    if p.length = 0 then .ok none
    else match finish (p.map some ++ some 0 :: List.replicate (n + 8 - (p.length + 1)) none) p.length with
      | .ub => .ub
      | .ok b => .ok (some b)
  | .needs m =>
    if m = 0 then .ok none
    else match finish (List.replicate (n + 8) none) m with
      | .ub => .ub
      | .ok b => .ok (some b)

/-- The string at the beginning of a buffer. -/
def text (b : Buf) : List (Option Nat) := b.takeWhile (· ≠ some 0)

theorem put_at {b : Buf} (a : Buf) (x : Option Nat) (r : Buf) (c : Nat) (h : b = a ++ x :: r) : put b a.length c = .ok (a ++ some c :: r) := by
  subst h
  simp [put]

/-- If the path still fits when it is asked for the second time, the pattern is the path, a backslash if there is no separator at its
end, and a star; nothing outside of the buffer is used.  Missing: the path may have become longer (`pattern_grown`). -/
theorem pattern_partial {n : Nat} {p : List Nat} {c : Nat} (hc : p.getLast? = some c) (h0 : 0 ∉ p) (hf : p.length < n) :
    ∃ b, pattern n (.path p) = .ok (some b) ∧
      text b = (p ++ (if c = 92 ∨ c = 47 ∨ c = 58 then [] else [92]) ++ [42]).map some := by
  obtain ⟨k, hk⟩ : ∃ k, n + 8 - (p.length + 1) = k + 2 := ⟨n + 8 - (p.length + 1) - 2, by omega⟩
  have hne : p ≠ [] := by rintro rfl; simp at hc
  have hpos : 0 < p.length := List.length_pos_of_ne_nil hne
  have hg : get (p.map some ++ some 0 :: List.replicate (k + 2) none) (p.length - 1) = .ok c := by
    have h1 : (p.map some ++ some 0 :: List.replicate (k + 2) none)[p.length - 1]? = some (some c) := by
      rw [List.getElem?_append_left (by simp; omega), List.getElem?_map]
      rw [List.getLast?_eq_getElem?] at hc
      rw [hc]; rfl
    simp [get, h1]
  have hs : isSep c = true ↔ (c = 92 ∨ c = 47 ∨ c = 58) := by simp [isSep, or_assoc]
  have htext : ∀ (q r : Buf), (∀ x ∈ q, x ≠ some 0) → text (q ++ some 0 :: r) = q := by
    intro q r hq
    unfold text
    rw [List.takeWhile_append_of_pos (by simpa using hq)]
    simp
  have hp0 : ∀ x ∈ p.map some, x ≠ some 0 := by
    intro x hx
    obtain ⟨y, hy, rfl⟩ := List.mem_map.1 hx
    simp only [ne_eq, Option.some.injEq]
    rintro rfl
    exact h0 hy
  simp only [pattern, if_neg (Nat.ne_of_gt hpos), hk, finish, hg]
  have e1 : p.length = (p.map some).length := by simp
  by_cases h : isSep c = true
  · rw [if_pos (hs.1 h)]
    simp only [h, if_true]
    have p1 : put (p.map some ++ some 0 :: List.replicate (k + 2) none) p.length 42 =
        .ok (p.map some ++ some 42 :: List.replicate (k + 2) none) := by
      conv => lhs; arg 2; rw [e1]
      exact put_at _ _ _ _ rfl
    have p2 : put (p.map some ++ some 42 :: List.replicate (k + 2) none) (p.length + 1) 0 =
        .ok ((p.map some ++ [some 42]) ++ some 0 :: List.replicate (k + 1) none) := by
      have e2 : p.length + 1 = (p.map some ++ [some 42]).length := by simp
      rw [e2]
      exact put_at _ none _ _ (by simp [List.replicate_succ])
    rw [p1]
    simp only []
    rw [p2]
    refine ⟨_, rfl, ?_⟩
    rw [htext _ _ (by intro x hx; rcases List.mem_append.1 hx with hx | hx; exact hp0 x hx; simp at hx; simp [hx])]
    simp
  · rw [if_neg (fun h' => h (hs.2 h'))]
    simp only [h, Bool.false_eq_true, if_false]
    have p1 : put (p.map some ++ some 0 :: List.replicate (k + 2) none) p.length 92 =
        .ok (p.map some ++ some 92 :: List.replicate (k + 2) none) := by
      conv => lhs; arg 2; rw [e1]
      exact put_at _ _ _ _ rfl
    have p2 : put (p.map some ++ some 92 :: List.replicate (k + 2) none) (p.length + 1) 42 =
        .ok ((p.map some ++ [some 92]) ++ some 42 :: List.replicate (k + 1) none) := by
      have e2 : p.length + 1 = (p.map some ++ [some 92]).length := by simp
      rw [e2]
      exact put_at _ none _ _ (by simp [List.replicate_succ])
    have p3 : put ((p.map some ++ [some 92]) ++ some 42 :: List.replicate (k + 1) none) (p.length + 2) 0 =
        .ok ((p.map some ++ [some 92, some 42]) ++ some 0 :: List.replicate k none) := by
      have e2 : p.length + 2 = (p.map some ++ [some 92, some 42]).length := by simp
      rw [e2]
      exact put_at _ none _ _ (by simp [List.replicate_succ])
    rw [p1]
    simp only []
    rw [p2]
    simp only []
    rw [p3]
    refine ⟨_, rfl, ?_⟩
    rw [htext _ _ (by intro x hx; rcases List.mem_append.1 hx with hx | hx; exact hp0 x hx; simp at hx; rcases hx with rfl | rfl <;> simp)]
    simp

example : ([97, 98] : List Nat).getLast? = some 98 ∧ pattern 3 (.path [97, 98]) =
    .ok (some [some 97, some 98, some 92, some 42, some 0, none, none, none, none, none, none]) := by decide

/-- If the path has become too long between the two calls (another thread changed the working directory), or the first call failed, a
place of the buffer is used that was never written to, or that is outside of it. -/
theorem pattern_grown (n : Nat) {m : Nat} (hm : m ≠ 0) : pattern n (.needs m) = .ub := by
  have : get (List.replicate (n + 8) none) (m - 1) = .ub := by
    unfold get
    split
    · next h => rw [List.getElem?_replicate] at h; split at h <;> simp at h
    · rfl
  simp [pattern, hm, finish, this]

end Verif.Win.Dirent
