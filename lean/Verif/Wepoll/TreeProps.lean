import Verif.Wepoll.TreeDel

/-!
# The search tree of src/wepoll.c: properties

The specification is a table of pairs (key, node) without an order.  Users of the tree add nodes which are not in it and delete
nodes which are in it (`Allowed`).
-/

namespace Verif.Wepoll.Tree

/-! ## Searching -/

def T.height : T → Nat
  | .nil => 0
  | .node _ _ _ l r => max l.height r.height + 1

theorem treeFind_ok : ∀ (fuel : Nat) {st : St} {par : Ptr} {t : T} (key : Nat), RepT st.mem par t → t.ents.Pairwise (fun a b => a.1 < b.1) →
    t.height < fuel → ∃ r, treeFind fuel st t.id key = some r ∧ ∀ q, r = some q ↔ (key, q) ∈ t.ents := by
  intro fuel
  induction fuel with
  | zero => intro _ _ _ _ _ _ h; omega
  | succ n ih =>
    intro st par t key h hs hlt
    cases t with
    | nil => exact ⟨none, rfl, by simp [T.ents]⟩
    | node p c k l r =>
      simp only [T.height] at hlt
      obtain ⟨hc, hl, hr⟩ := h
      simp only [T.ents] at hs ⊢
      rw [List.pairwise_append, List.pairwise_cons] at hs
      obtain ⟨s1, ⟨s2, s3⟩, s4⟩ := hs
      rw [T.id, treeFind, hc]
      dsimp only
      by_cases h1 : key < k
      · rw [if_pos h1]
        obtain ⟨x, e, hx⟩ := ih key hl s1 (by omega)
        refine ⟨x, e, fun q => ?_⟩
        rw [hx, List.mem_append, List.mem_cons]
        refine ⟨Or.inl, ?_⟩
        rintro (a | a | a)
        · exact a
        · injection a with a1 a2; omega
        · have := s2 _ a
          dsimp only at this
          omega
      · rw [if_neg h1]
        by_cases h2 : k < key
        · rw [if_pos h2]
          obtain ⟨x, e, hx⟩ := ih key hr s3 (by omega)
          refine ⟨x, e, fun q => ?_⟩
          rw [hx, List.mem_append, List.mem_cons]
          refine ⟨fun a => Or.inr (Or.inr a), ?_⟩
          rintro (a | a | a)
          · have := s4 _ a (k, p) (by simp)
            dsimp only at this
            omega
          · injection a with a1 a2; omega
          · exact a
        · rw [if_neg h2]
          have hk : key = k := by omega
          subst hk
          refine ⟨some p, rfl, fun q => ?_⟩
          rw [List.mem_append, List.mem_cons]
          constructor
          · intro e
            injection e with e
            subst e
            exact Or.inr (Or.inl rfl)
          · rintro (a | a | a)
            · have := s4 _ a (key, p) (by simp)
              dsimp only at this
              omega
            · injection a with a1 a2
              rw [a2]
            · have := s2 _ a
              dsimp only at this
              omega

theorem height_le : ∀ {t : T} {n : Nat}, RB t n → t.height ≤ 2 * n + (if t.red then 1 else 0) ∧ 2 ^ n ≤ t.size + 1 := by
  intro t
  induction t with
  | nil =>
    intro n h
    have : n = 0 := h
    subst this
    simp [T.height, T.size]
  | node p c k l r ihl ihr =>
    intro n h
    rcases h with ⟨hc, h1, h2, h3, h4⟩ | ⟨hc, m, rfl, h3, h4⟩
    · obtain ⟨a1, a2⟩ := ihl h3
      obtain ⟨b1, b2⟩ := ihr h4
      rw [h1] at a1
      rw [h2] at b1
      simp only [T.height, T.size, T.red, hc, if_true, Bool.false_eq_true, if_false] at *
      omega
    · obtain ⟨a1, a2⟩ := ihl h3
      obtain ⟨b1, b2⟩ := ihr h4
      simp only [T.height, T.size, T.red, hc, Bool.false_eq_true, if_false]
      rw [Nat.pow_succ]
      split at a1 <;> split at b1 <;> omega

theorem height_size (t : T) : t.height ≤ t.size := by
  induction t with
  | nil => simp [T.height, T.size]
  | node p c k l r ihl ihr => simp only [T.height, T.size]; omega

/-! ## The specification -/

/-- The users' operations. -/
inductive Op where
  | add (node key : Nat)
  | del (node : Nat)
  | find (key : Nat)

/-- What a caller sees. -/
inductive Ans where
  | code (r : Int)
  | done
  | node (p : Option Nat)
  deriving DecidableEq

/-- A table of (key, node). -/
abbrev Table := List (Nat × Nat)

def lookup (m : Table) (key : Nat) : Option Nat :=
  match m with
  | [] => none
  | (k, p) :: m => if k = key then some p else lookup m key

def spec (m : Table) : Op → Table × Ans
  | .add p key => if (lookup m key).isSome then (m, .code (-1)) else ((key, p) :: m, .code 0)
  | .del p => (m.filter (fun e => e.2 ≠ p), .done)
  | .find key => (m, .node (lookup m key))

/-- A node is added only when it is not in the table, and deleted only when it is. -/
def Allowed (m : Table) : Op → Prop
  | .add p _ => p ∉ m.map (·.2)
  | .del p => p ∈ m.map (·.2)
  | .find _ => True

def AllowedAll (m : Table) : List Op → Prop
  | [] => True
  | o :: os => Allowed m o ∧ AllowedAll (spec m o).1 os

def specAll (m : Table) : List Op → Table × List Ans
  | [] => (m, [])
  | o :: os => ((specAll (spec m o).1 os).1, (spec m o).2 :: (specAll (spec m o).1 os).2)

/-- The operations of the code. -/
def exec (fuel : Nat) (st : St) : Op → Option (St × Ans)
  | .add p key => match treeAdd fuel st p key with | some (r, st) => some (st, .code r) | none => none
  | .del p => match treeDel fuel st p with | some st => some (st, .done) | none => none
  | .find key => match treeFind fuel st st.root key with | some r => some (st, .node r) | none => none

def execAll (fuel : Nat) (st : St) : List Op → Option (St × List Ans)
  | [] => some (st, [])
  | o :: os =>
    match exec fuel st o with
    | none => none
    | some (st, a) =>
      match execAll fuel st os with
      | none => none
      | some (st, as) => some (st, a :: as)

/-- The pointers hold a red-black search tree with exactly the entries of the table. -/
def Inv (st : St) (m : Table) : Prop := ∃ t, Rep st [] t ∧ Good t ∧ t.ents.Perm m

theorem nodup_keys {t : T} (hg : Good t) : (t.ents.map (·.1)).Nodup := by
  rw [List.nodup_iff_pairwise_ne, List.pairwise_map]
  exact hg.2.2.imp (fun h => by omega)

theorem lookup_mem {m : Table} (hn : (m.map (·.1)).Nodup) (key q : Nat) : lookup m key = some q ↔ (key, q) ∈ m := by
  induction m with
  | nil => simp [lookup]
  | cons e m ih =>
    obtain ⟨k, p⟩ := e
    rw [List.map_cons, List.nodup_cons] at hn
    rw [lookup, List.mem_cons]
    by_cases h : k = key
    · subst h
      rw [if_pos rfl]
      constructor
      · intro a
        injection a with a
        subst a
        exact Or.inl rfl
      · rintro (a | a)
        · injection a with _ a2
          rw [a2]
        · exact absurd (List.mem_map.2 ⟨_, a, rfl⟩) hn.1
    · rw [if_neg h, ih hn.2]
      constructor
      · exact Or.inr
      · rintro (a | a)
        · injection a with a1 _
          exact absurd a1.symm h
        · exact a

theorem exec_ok {fuel : Nat} {st : St} {m : Table} {o : Op} (hi : Inv st m) (ha : Allowed m o) (hf : m.length + 1 < fuel) :
    ∃ st', exec fuel st o = some (st', (spec m o).2) ∧ Inv st' (spec m o).1 := by
  obtain ⟨t, hr, hg, hp⟩ := hi
  have hsz : t.size = m.length := by rw [size_ids, ids_ents, List.length_map, hp.length_eq]
  have hnk : (m.map (·.1)).Nodup := (hp.map _).nodup_iff.1 (nodup_keys hg)
  cases o with
  | find key =>
    obtain ⟨r, e, hq⟩ := treeFind_ok fuel key hr.foc hg.2.2 (by have := height_size t; omega)
    have hroot : st.root = t.id := hr.root
    refine ⟨st, ?_, t, hr, hg, hp⟩
    rw [exec, hroot, e]
    have : r = lookup m key := by
      cases hl : lookup m key with
      | some q => rw [hq, hp.mem_iff, ← lookup_mem hnk, hl]
      | none =>
        cases r with
        | none => rfl
        | some q =>
          have := (hq q).1 rfl
          rw [hp.mem_iff, ← lookup_mem hnk, hl] at this
          cases this
    rw [this]
    rfl
  | add p key =>
    have hp' : p ∉ t.ids := by
      rw [ids_ents, (hp.map _).mem_iff]
      exact ha
    rw [spec]
    cases hl : lookup m key with
    | some q =>
      have hk : (key, q) ∈ t.ents := by rw [hp.mem_iff, ← lookup_mem hnk, hl]
      rw [exec, treeAdd_dup hr hg (by omega) hk]
      exact ⟨st, rfl, t, hr, hg, hp⟩
    | none =>
      have hk : ∀ q, (key, q) ∉ t.ents := by
        intro q h
        rw [hp.mem_iff, ← lookup_mem hnk, hl] at h
        cases h
      obtain ⟨st', t', L, R, e, h1, h2, h3, h4⟩ := treeAdd_new (fuel := fuel) hr hg (by omega) hk hp'
      rw [exec, e]
      refine ⟨st', rfl, t', h1, h2, ?_⟩
      rw [h4]
      refine List.perm_middle.trans ?_
      exact List.Perm.cons _ (h3 ▸ hp)
  | del p =>
    have hp' : p ∈ t.ids := by
      rw [ids_ents, (hp.map _).mem_iff]
      exact ha
    obtain ⟨st', t', L, R, k, e, h1, h2, h3, h4⟩ := treeDel_ok (fuel := fuel) hr hg (by omega) hp'
    rw [exec, e]
    refine ⟨st', rfl, t', h1, h2, ?_⟩
    rw [h4]
    have hnd : (t.ents.map (·.2)).Nodup := by
      rw [← ids_ents]
      have := hr.nd
      simpa [cids] using this
    have hfil : t.ents.filter (fun e => e.2 ≠ p) = L ++ R := by
      rw [h3, List.map_append, List.map_cons] at hnd
      have h5 := List.nodup_middle.1 hnd
      rw [List.nodup_cons, ← List.map_append] at h5
      have hall : ∀ e ∈ L ++ R, e.2 ≠ p := fun e he q => h5.1 (List.mem_map.2 ⟨e, he, q⟩)
      rw [h3, List.filter_append, List.filter_cons]
      simp only [ne_eq, not_true_eq_false, decide_false, Bool.false_eq_true, if_false]
      rw [← List.filter_append, List.filter_eq_self]
      intro e he
      simpa using hall e he
    rw [← hfil]
    exact hp.filter _

theorem inv_init (mem : Nat → Node) : Inv (treeInit mem) [] :=
  ⟨.nil, ⟨rfl, trivial, trivial, by simp [T.ids, cids]⟩, ⟨rfl, ⟨0, rfl⟩, by simp [T.ents]⟩, by simp [T.ents]⟩

theorem spec_len (m : Table) (o : Op) : (spec m o).1.length ≤ m.length + 1 := by
  cases o with
  | add p key => rw [spec]; split <;> simp
  | del p => exact Nat.le_succ_of_le (List.length_filter_le _ _)
  | find key => simp [spec]

theorem execAll_ok : ∀ (os : List Op) {fuel : Nat} {st : St} {m : Table}, Inv st m → AllowedAll m os → m.length + os.length + 1 < fuel →
    ∃ st', execAll fuel st os = some (st', (specAll m os).2) ∧ Inv st' (specAll m os).1 := by
  intro os
  induction os with
  | nil => intro fuel st m hi _ _; exact ⟨st, rfl, hi⟩
  | cons o os ih =>
    intro fuel st m hi ha hf
    simp only [List.length_cons] at hf
    obtain ⟨st1, e1, i1⟩ := exec_ok hi ha.1 (show m.length + 1 < fuel by omega)
    obtain ⟨st2, e2, i2⟩ := ih i1 ha.2 (show _ < fuel by have := spec_len m o; omega)
    refine ⟨st2, ?_, i2⟩
    rw [execAll, e1]
    dsimp only
    rw [e2]
    rfl

/-! ## Theorems -/

/-- **C145.**  Whatever the memory held before, any sequence of additions, deletions and searches of an initially empty tree gives the
answers of the table, and no null pointer is followed.  The number `fuel` only bounds the loops. -/
theorem tree_is_a_table (mem : Nat → Node) (os : List Op) (ha : AllowedAll [] os) (fuel : Nat) (hf : os.length + 1 < fuel) :
    ∃ st', execAll fuel (treeInit mem) os = some (st', (specAll [] os).2) := by
  obtain ⟨st', e, _⟩ := execAll_ok os (inv_init mem) ha (by simpa using hf)
  exact ⟨st', e⟩

/-- **C145.**  A node found is the one added last under that key and not deleted since: the table holds a key and a node at most once. -/
theorem table_unique (os : List Op) (ha : AllowedAll [] os) :
    ((specAll [] os).1.map (·.1)).Nodup ∧ ((specAll [] os).1.map (·.2)).Nodup := by
  obtain ⟨st', _, t, hr, hg, hp⟩ := execAll_ok os (inv_init (fun _ => ⟨0, none, none, none, false⟩)) ha (Nat.lt_succ_self _)
  refine ⟨(hp.map _).nodup_iff.1 (nodup_keys hg), (hp.map _).nodup_iff.1 ?_⟩
  rw [← ids_ents]
  have := hr.nd
  simpa [cids] using this

/-- **C145.**  `tree_root` gives a node of the table as long as there is one: the loop which deletes the root until there is none
(`port_delete`) deletes every node. -/
theorem tree_root_spec (mem : Nat → Node) (os : List Op) (ha : AllowedAll [] os) (fuel : Nat) (hf : os.length + 1 < fuel) :
    ∃ st' as, execAll fuel (treeInit mem) os = some (st', as) ∧
      ((specAll [] os).1 = [] ↔ st'.root = none) ∧ ∀ p, st'.root = some p → p ∈ (specAll [] os).1.map (·.2) := by
  obtain ⟨st', e, t, hr, hg, hp⟩ := execAll_ok os (inv_init mem) ha (by simpa using hf)
  have hroot : st'.root = t.id := hr.root
  refine ⟨st', _, e, ?_, ?_⟩
  · rw [hroot]
    cases t with
    | nil =>
      have := hp
      simp only [T.ents, List.nil_perm] at this
      rw [this]
      simp [T.id]
    | node p c k l r =>
      simp only [T.id, reduceCtorEq, iff_false]
      intro h
      rw [h] at hp
      have := hp.length_eq
      simp [T.ents] at this
  · intro p hp'
    rw [hroot] at hp'
    rw [← (hp.map _).mem_iff, ← ids_ents]
    exact id_mem hp'

/-- **C146.**  A search in a tree of `n` nodes looks at no more than `2 * log2 (n + 1)` nodes: with that many steps (and one to see the
end) `tree_find` gives the answer of the table. -/
theorem tree_search_cost (mem : Nat → Node) (os : List Op) (ha : AllowedAll [] os) (fuel : Nat) (hf : os.length + 1 < fuel) (key : Nat) :
    ∃ st' as, execAll fuel (treeInit mem) os = some (st', as) ∧
      treeFind (2 * Nat.log2 ((specAll [] os).1.length + 1) + 1) st' st'.root key = some (lookup (specAll [] os).1 key) := by
  obtain ⟨st', e, t, hr, hg, hp⟩ := execAll_ok os (inv_init mem) ha (by simpa using hf)
  refine ⟨st', _, e, ?_⟩
  have hsz : t.size = (specAll [] os).1.length := by rw [size_ids, ids_ents, List.length_map, hp.length_eq]
  obtain ⟨n, hn⟩ := hg.2.1
  obtain ⟨h1, h2⟩ := height_le hn
  rw [hg.1] at h1
  simp only [Bool.false_eq_true, if_false] at h1
  have h3 : n ≤ Nat.log2 (t.size + 1) := (Nat.le_log2 (by omega)).2 h2
  rw [hsz] at h3
  have hroot : st'.root = t.id := hr.root
  obtain ⟨r, e2, hq⟩ := treeFind_ok (2 * Nat.log2 ((specAll [] os).1.length + 1) + 1) key hr.foc hg.2.2 (by omega)
  rw [hroot, e2]
  have hnk := (hp.map (·.1)).nodup_iff.1 (nodup_keys hg)
  cases hl : lookup (specAll [] os).1 key with
  | some q => rw [(hq q).2 (by rw [hp.mem_iff, ← lookup_mem hnk, hl])]
  | none =>
    cases r with
    | none => rfl
    | some q =>
      have := (hq q).1 rfl
      rw [hp.mem_iff, ← lookup_mem hnk, hl] at this
      cases this

/-- A use of the tree. -/
example : AllowedAll [] [.add 1 50, .add 2 20, .add 3 70, .add 4 20, .add 5 60, .find 60, .del 1, .find 50, .add 1 50] := by
  simp [AllowedAll, Allowed, spec, lookup]

example : (specAll [] [.add 1 50, .add 2 20, .add 3 70, .add 4 20, .add 5 60, .find 60, .del 1, .find 50, .add 1 50]).2 =
    [.code 0, .code 0, .code 0, .code (-1), .code 0, .node (some 5), .done, .node none, .code 0] := by
  decide

example : (execAll 12 (treeInit fun _ => ⟨9, some 3, some 4, none, true⟩)
    [.add 1 50, .add 2 20, .add 3 70, .add 4 20, .add 5 60, .find 60, .del 1, .find 50, .add 1 50]).map (·.2) =
    some [.code 0, .code 0, .code 0, .code (-1), .code 0, .node (some 5), .done, .node none, .code 0] := by
  decide

end Verif.Wepoll.Tree
