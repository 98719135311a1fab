import Verif.Kq.Update

/-!
# Properties of directory changes on BSD and macOS
-/

namespace Verif.Kq.Update

/-- The listing of a directory that holds the known files in the order in which they are known. -/
def listed (fs : List Known) : List Entry := fs.map fun f => ⟨.reg, f.name⟩

/-- `stat` finds the file as it is known. -/
def Same (stat : Nat → Option Meta) (f : Known) : Prop := stat f.name = some f.info

theorem walk_other (stat : Nat → Option Meta) (max : Nat) (e : Entry) (es : List Entry) (i : Nat) (fs : List Known)
    (s : Slot) (h : e.sort ≠ .reg) : walk stat max (e :: es) i fs s = walk stat max es i fs s := by
  rw [walk, if_pos h]

/-- Unchanged files in front are passed. -/
theorem walk_same (stat : Nat → Option Meta) (max : Nat) (p q : List Known) (es : List Entry) (s : Slot)
    (a : List Known) (hp : ∀ f ∈ p, Same stat f) (hmax : (a ++ p).length ≤ max) :
    walk stat max (listed p ++ es) a.length (a ++ p ++ q) s =
      walk stat max es (a ++ p).length (a ++ p ++ q) s := by
  induction p generalizing a with
  | nil => simp [listed]
  | cons f p ih =>
    have hf := hp f List.mem_cons_self
    have hlen : (a ++ f :: p).length = a.length + p.length + 1 := by simp; omega
    rw [hlen] at hmax
    have hget : (a ++ f :: p ++ q)[a.length]? = some f := by simp
    have step : walk stat max (listed (f :: p) ++ es) a.length (a ++ f :: p ++ q) s =
        walk stat max (listed p ++ es) (a.length + 1) (a ++ f :: p ++ q) s := by
      rw [listed, List.map_cons, List.cons_append, walk]
      rw [if_neg (by simp), if_neg (by omega), hget]
      dsimp only
      rw [if_pos rfl]
      unfold Same at hf
      rw [hf]
      dsimp only
      rw [if_pos rfl]
      rfl
    rw [step]
    have := ih (a ++ [f]) (fun g hg => hp g (List.mem_cons_of_mem _ hg)) (by simp; omega)
    simpa using this

/-- The files that `stat` finds changed. -/
def changed (stat : Nat → Option Meta) (fs : List Known) : List Nat :=
  (fs.filter fun f => decide (stat f.name ≠ some f.info)).map Known.name

theorem update_modified (stat : Nat → Option Meta) (p q : List Known) (f : Known) (m : Meta) (s : Slot)
    (hp : ∀ g ∈ p, Same stat g) (hf : stat f.name = some m) (hm : m ≠ f.info) :
    update stat (listed (p ++ f :: q)) (p ++ f :: q) s =
      { files := p ++ { f with info := m } :: q, slot := { s with inUse := false, workdir := none },
        udata := some (.known f.name), count := (p ++ f :: q).length, offset := (p ++ f :: q).length } := by
  have hw : walk stat (p ++ f :: q).length (listed (p ++ f :: q)) 0 (p ++ f :: q) s =
      (p ++ { f with info := m } :: q, { s with inUse := false, workdir := some (.known f.name) }) := by
    have h := walk_same stat (p ++ f :: q).length p (f :: q) (listed (f :: q)) s [] hp (by simp)
    simp only [List.nil_append, List.length_nil] at h
    have e : listed (p ++ f :: q) = listed p ++ listed (f :: q) := by simp [listed]
    rw [e, h, listed, List.map_cons, walk, if_neg (by simp), if_neg (by simp)]
    have hget : (p ++ f :: q)[p.length]? = some f := by simp
    rw [hget]
    dsimp only
    rw [if_pos rfl, hf]
    dsimp only
    rw [if_neg hm]
    simp
  unfold update
  rw [hw]
  simp

/-- C178 (the part that holds): when files of the directory were changed and none added or removed, and they are listed
in the order in which they are known, each event calls the user's function with the first file that was changed and not
yet reported, as modified, and takes note of its new state; the event after as many as there are changed files finds
nothing.  Missing: see the negations below. -/
theorem modified_partial (stat : Nat → Option Meta) (fs : List Known) (s : Slot) (fl : Flags)
    (hfl : fl.delete = false ∧ fl.rename = false) (hex : ∀ f ∈ fs, (stat f.name).isSome) (n : Nat) (ns : List Nat)
    (hc : changed stat fs = n :: ns) :
    ∃ fs' s', event stat (listed fs) fl fs s = (.ok (.modified, n), fs', s') ∧ changed stat fs' = ns ∧
      fs'.map Known.name = fs.map Known.name := by
  obtain ⟨p, f, q, rfl, hp, hf, hname, hrest⟩ : ∃ p f q, fs = p ++ f :: q ∧ (∀ g ∈ p, Same stat g) ∧
      stat f.name ≠ some f.info ∧ f.name = n ∧ changed stat q = ns := by
    clear hex
    induction fs with
    | nil => simp [changed] at hc
    | cons g fs ih =>
      by_cases hg : stat g.name = some g.info
      · have : changed stat (g :: fs) = changed stat fs := by simp [changed, hg]
        rw [this] at hc
        obtain ⟨p, f, q, rfl, h1, h2, h3, h4⟩ := ih hc
        refine ⟨g :: p, f, q, rfl, ?_, h2, h3, h4⟩
        intro x hx
        rcases List.mem_cons.1 hx with rfl | hx
        · exact hg
        · exact h1 x hx
      · have : changed stat (g :: fs) = g.name :: changed stat fs := by simp [changed, hg]
        rw [this] at hc
        obtain ⟨h1, h2⟩ := List.cons.inj hc
        exact ⟨[], g, fs, rfl, by simp, hg, h1, h2⟩
  obtain ⟨m, hm⟩ := Option.isSome_iff_exists.1 (hex f (by simp))
  have hne : m ≠ f.info := by
    rintro rfl
    exact hf hm
  have hu := update_modified stat p q f m s hp hm hne
  refine ⟨p ++ { f with info := m } :: q, { s with inUse := false, workdir := none, path := none }, ?_, ?_, ?_⟩
  · unfold event
    rw [hu]
    simp [readPtr, action, hfl.1, hfl.2, hname, Res.bind]
  · have e1 : changed stat p = [] := by
      unfold changed
      rw [List.map_eq_nil_iff, List.filter_eq_nil_iff]
      intro g hg
      have := hp g hg
      unfold Same at this
      simp [this]
    unfold changed at e1 hrest ⊢
    rw [List.filter_append, List.map_append, e1, List.filter_cons]
    simp only [hm, ne_eq, not_true_eq_false, decide_false, Bool.false_eq_true, if_false, List.nil_append]
    simpa using hrest
  · simp

theorem update_removed (stat : Nat → Option Meta) (p q : List Known) (f g : Known) (s : Slot)
    (hp : ∀ x ∈ p, Same stat x) (hf : stat f.name = none) (hn : f.name ≠ g.name) :
    update stat (listed (p ++ g :: q)) (p ++ f :: g :: q) s =
      { files := p ++ g :: q, slot := ⟨true, some (.own f.name), some (.dirent g.name)⟩,
        udata := some (.own f.name), count := (p ++ g :: q).length + 1, offset := (p ++ g :: q).length } := by
  have hw : walk stat (p ++ f :: g :: q).length (listed (p ++ g :: q)) 0 (p ++ f :: g :: q) s =
      (p ++ g :: q, ⟨true, some (.own f.name), some (.dirent g.name)⟩) := by
    have h := walk_same stat (p ++ f :: g :: q).length p (f :: g :: q) (listed (g :: q)) s [] hp (by simp)
    simp only [List.nil_append, List.length_nil] at h
    have e : listed (p ++ g :: q) = listed p ++ listed (g :: q) := by simp [listed]
    rw [e, h, listed, List.map_cons, walk, if_neg (by simp), if_neg (by simp)]
    have hget : (p ++ f :: g :: q)[p.length]? = some f := by simp
    rw [hget]
    dsimp only
    rw [if_neg hn, hf]
    dsimp only
    rw [List.eraseIdx_append_of_length_le (by simp)]
    simp
  unfold update
  rw [hw]
  simp
  omega

/-- C179 (the part that holds): when a file that is not the last listed one was removed, and the files in front of it
are unchanged, the event calls the user's function with that file, as removed, and it is known no longer.  Missing: the
last one (`removed_last_missed`). -/
theorem removed_partial (stat : Nat → Option Meta) (p q : List Known) (f g : Known) (s : Slot) (fl : Flags)
    (hp : ∀ x ∈ p, Same stat x) (hf : stat f.name = none) (hn : f.name ≠ g.name) :
    ∃ s', event stat (listed (p ++ g :: q)) fl (p ++ f :: g :: q) s = (.ok (.removed, f.name), p ++ g :: q, s') ∧
      s'.inUse = true := by
  have hu := update_removed stat p q f g s hp hf hn
  refine ⟨⟨true, none, some (.dirent g.name)⟩, ?_, rfl⟩
  unfold event
  rw [hu]
  have : ¬ (fl.write = true ∧ (p ++ g :: q).length + 1 < (p ++ g :: q).length) := by omega
  simp only [readPtr, action, Res.bind]
  rw [if_neg this, if_pos (Or.inr (by omega))]

/-- C179: for an entry that no removal has touched, the last file is found as well. -/
theorem removed_last_fresh_partial (stat : Nat → Option Meta) (p : List Known) (f : Known) (fl : Flags)
    (hp : ∀ x ∈ p, Same stat x) (hf : stat f.name = none) :
    ∃ s', event stat (listed p) fl (p ++ [f]) {} = (.ok (.removed, f.name), p, s') := by
  have hw : walk stat (p ++ [f]).length (listed p) 0 (p ++ [f]) {} = (p ++ [f], {}) := by
    have h := walk_same stat (p ++ [f]).length p [f] [] {} [] hp (by simp)
    simp only [List.nil_append, List.append_nil, List.length_nil] at h
    rw [h, walk]
  have hg : firstGone stat (p ++ [f]) = some p.length := by
    unfold firstGone
    rw [List.findIdx?_append]
    have : p.findIdx? (fun f => (stat f.name).isNone) = none := by
      rw [List.findIdx?_eq_none_iff]
      intro x hx
      have := hp x hx
      unfold Same at this
      simp [this]
    rw [this]
    simp [hf]
  refine ⟨⟨true, none, none⟩, ?_⟩
  unfold event update
  rw [hw]
  simp only [Bool.false_eq_true, if_false, hg]
  have hget : (p ++ [f])[p.length]? = some f := by simp
  rw [hget]
  have he : (p ++ [f]).eraseIdx p.length = p := by
    rw [List.eraseIdx_append_of_length_le (by simp)]
    simp
  simp only [Option.map_some, he, readPtr, action, Res.bind, List.length_append, List.length_cons, List.length_nil]
  rw [if_neg (by omega), if_pos (Or.inr (by omega))]

/-- C179, negated: after a removal found by the comparison of names (`inUse` is then set), the removal of the last listed
file is missed: it stays known, and the user's function is called with a null pointer. -/
theorem removed_last_missed (stat : Nat → Option Meta) (p : List Known) (f : Known) (fl : Flags) (w : Option Ptr)
    (hp : ∀ x ∈ p, Same stat x) :
    event stat (listed p) fl (p ++ [f]) ⟨true, none, w⟩ = (.ub, p ++ [f], ⟨true, none, w⟩) := by
  have hw : walk stat (p ++ [f]).length (listed p) 0 (p ++ [f]) ⟨true, none, w⟩ = (p ++ [f], ⟨true, none, w⟩) := by
    have h := walk_same stat (p ++ [f]).length p [f] [] ⟨true, none, w⟩ [] hp (by simp)
    simp only [List.nil_append, List.append_nil, List.length_nil] at h
    rw [h, walk]
  unfold event update
  rw [hw]
  simp [readPtr, Res.bind]

/-! ### New files -/

/-- What `walk` can have done when the list has grown: the entry has been told to report a directory entry. -/
theorem walk_grown (stat : Nat → Option Meta) (max : Nat) (es : List Entry) (i : Nat) (fs : List Known) (s : Slot)
    (h : fs.length < (walk stat max es i fs s).1.length) :
    (walk stat max es i fs s).2.inUse = false ∧ ∃ n, (walk stat max es i fs s).2.workdir = some (.dirent n) := by
  induction es generalizing i s with
  | nil => simp [walk] at h
  | cons e es ih =>
    rw [walk] at h ⊢
    split at h
    · rename_i h1
      rw [if_pos h1]
      exact ih i s h
    · rename_i h1
      rw [if_neg h1]
      split at h
      · simp at h
      · rename_i h2
        rw [if_neg h2]
        cases hg : fs[i]? with
        | none => rw [hg] at h; simp at h
        | some f =>
          rw [hg] at h
          dsimp only at h ⊢
          split at h
          · rename_i h3
            rw [if_pos h3]
            cases hs : stat f.name with
            | none => rw [hs] at h; exact ih _ _ h
            | some m =>
              rw [hs] at h
              dsimp only at h ⊢
              split at h
              · rename_i h4
                rw [if_pos h4]
                exact ih _ _ h
              · simp at h
          · rename_i h3
            rw [if_neg h3]
            cases hs : stat f.name with
            | none =>
              rw [hs] at h
              dsimp only at h
              have := List.length_eraseIdx_le fs i
              omega
            | some m =>
              rw [hs] at h
              dsimp only at h ⊢
              split at h
              · rename_i h4
                rw [if_pos h4]
                cases hs' : stat e.name with
                | none => rw [hs'] at h; exact ih _ _ h
                | some m' => exact ⟨rfl, e.name, rfl⟩
              · rename_i h4
                rw [if_neg h4]
                exact ih _ _ h

/-- C180, negated: whatever the directory looks like, whenever a new file is found, the user's function is called with
a name in memory that `closedir` has freed. -/
theorem added_dangling (stat : Nat → Option Meta) (listing : List Entry) (fl : Flags) (fs : List Known) (s : Slot)
    (h : (update stat listing fs s).count < (update stat listing fs s).offset) :
    (event stat listing fl fs s).1 = .ub := by
  have key : fs.length < (walk stat fs.length listing 0 fs s).1.length := by
    unfold update at h
    dsimp only at h
    split at h
    · exact h
    · split at h
      · exact h
      · split at h
        · exact h
        · dsimp only at h
          have := List.length_eraseIdx_le (walk stat fs.length listing 0 fs s).1 (by assumption)
          omega
  obtain ⟨h1, n, h2⟩ := walk_grown stat fs.length listing 0 fs s key
  unfold event update
  simp only [h1, h2]
  rfl

/-- C180, negated: a new file listed behind the known ones (and whatever follows it) is not found at all, and stays
unknown; the call has a null pointer or an old one. -/
theorem added_last_missed (stat : Nat → Option Meta) (fs : List Known) (hfs : ∀ f ∈ fs, Same stat f) (n : Nat)
    (more : List Entry) (fl : Flags) (s : Slot) :
    (event stat (listed fs ++ ⟨.reg, n⟩ :: more) fl fs s).2.1 = fs ∧
      (event stat (listed fs ++ ⟨.reg, n⟩ :: more) fl fs {}).1 = .ub := by
  have hw : ∀ s, walk stat fs.length (listed fs ++ ⟨.reg, n⟩ :: more) 0 fs s = (fs, s) := by
    intro s
    have h := walk_same stat fs.length fs [] (⟨.reg, n⟩ :: more) s [] hfs (by simp)
    simp only [List.nil_append, List.append_nil, List.length_nil] at h
    rw [h, walk, if_neg (by simp), if_pos (Nat.le_refl _)]
  have hg : firstGone stat fs = none := by
    unfold firstGone
    rw [List.findIdx?_eq_none_iff]
    intro x hx
    have := hfs x hx
    unfold Same at this
    simp [this]
  constructor
  · unfold event update
    rw [hw]
    dsimp only
    split
    · rfl
    · cases hwd : s.workdir with
      | some p => rfl
      | none => simp [hg]
  · unfold event update
    rw [hw]
    simp [hg, readPtr, Res.bind]

/-- C180, negated: after a new file was found (listed in front of a known one `f`), the very next event, with nothing
changed, finds `f` as new, though it is known, and from then on knows it twice. -/
theorem added_then_twice (stat : Nat → Option Meta) (p q : List Known) (f new : Known) (s : Slot)
    (hall : ∀ x ∈ p ++ f :: q ++ [new], Same stat x) (hd : ((p ++ f :: q ++ [new]).map Known.name).Nodup) :
    (update stat (listed (p ++ new :: f :: q)) (p ++ f :: q) s).files = p ++ f :: q ++ [new] ∧
    ∀ s', (update stat (listed (p ++ new :: f :: q)) (p ++ f :: q ++ [new]) s').files = p ++ f :: q ++ [new] ++ [f] := by
  have hp : ∀ x ∈ p, Same stat x := fun x hx => hall x (by simp [hx])
  have hf : stat f.name = some f.info := hall f (by simp)
  have hnew : stat new.name = some new.info := hall new (by simp)
  have hnf : f.name ≠ new.name := by
    intro he
    rw [List.map_append, List.nodup_append] at hd
    exact hd.2.2 f.name (by simp) new.name (by simp) he
  have hnq : ∀ x ∈ q, x.name ≠ new.name := by
    intro x hx he
    rw [List.map_append, List.nodup_append] at hd
    exact hd.2.2 x.name (List.mem_map_of_mem (by simp [hx])) new.name (by simp) he
  have hfq : ∀ x ∈ q, x.name ≠ f.name := by
    intro x hx he
    rw [List.append_assoc, List.map_append, List.nodup_append] at hd
    have h2 := hd.2.1
    rw [List.cons_append, List.map_cons, List.nodup_cons] at h2
    exact h2.1 (by rw [← he]; exact List.mem_map_of_mem (by simp [hx]))
  have e : listed (p ++ new :: f :: q) = listed p ++ ⟨.reg, new.name⟩ :: ⟨.reg, f.name⟩ :: listed q := by
    simp [listed]
  constructor
  · have hw : walk stat (p ++ f :: q).length (listed (p ++ new :: f :: q)) 0 (p ++ f :: q) s =
        (p ++ f :: q ++ [new], { s with inUse := false, workdir := some (.dirent new.name) }) := by
      have h := walk_same stat (p ++ f :: q).length p (f :: q) (⟨.reg, new.name⟩ :: ⟨.reg, f.name⟩ :: listed q) s []
        hp (by simp)
      simp only [List.nil_append, List.length_nil] at h
      rw [e, h, walk, if_neg (by simp), if_neg (by simp)]
      have hget : (p ++ f :: q)[p.length]? = some f := by simp
      rw [hget]
      dsimp only
      rw [if_neg hnf, hf]
      dsimp only
      have hall' : ((p ++ f :: q).drop p.length).all (fun g => g.name != new.name) = true := by
        rw [List.drop_left, List.all_eq_true]
        intro x hx
        rcases List.mem_cons.1 hx with rfl | hx
        · simpa using hnf
        · simpa using hnq x hx
      rw [if_pos hall', hnew]
    unfold update
    rw [hw]
    simp
  · intro s'
    have hw : walk stat (p ++ f :: q ++ [new]).length (listed (p ++ new :: f :: q)) 0 (p ++ f :: q ++ [new]) s' =
        (p ++ f :: q ++ [new] ++ [f], { s' with inUse := false, workdir := some (.dirent f.name) }) := by
      have h := walk_same stat (p ++ f :: q ++ [new]).length p (f :: q ++ [new])
        (⟨.reg, new.name⟩ :: ⟨.reg, f.name⟩ :: listed q) s' [] hp (by simp)
      simp only [List.nil_append, List.length_nil] at h
      have e2 : p ++ f :: q ++ [new] = p ++ (f :: q ++ [new]) := by simp
      rw [← e2] at h
      rw [e, h, walk, if_neg (by simp), if_neg (by simp)]
      have hget : (p ++ f :: q ++ [new])[p.length]? = some f := by simp
      rw [hget]
      dsimp only
      rw [if_neg hnf, hf]
      dsimp only
      rw [if_neg (by rw [e2, List.drop_left]; simp)]
      rw [walk, if_neg (by simp), if_neg (by simp)]
      obtain ⟨g, r, hgr, hgf, hgs, hrf⟩ : ∃ g r, q ++ [new] = g :: r ∧ g.name ≠ f.name ∧
          stat g.name = some g.info ∧ ∀ x ∈ r, x.name ≠ f.name := by
        cases q with
        | nil => exact ⟨new, [], rfl, fun h => hnf h.symm, hnew, by simp⟩
        | cons g r =>
          refine ⟨g, r ++ [new], rfl, hfq g (by simp), hall g (by simp), ?_⟩
          intro x hx
          rcases List.mem_append.1 hx with hx | hx
          · exact hfq x (by simp [hx])
          · rw [List.mem_singleton.1 hx]; exact fun h => hnf h.symm
      have e3 : p ++ f :: q ++ [new] = (p ++ [f]) ++ (g :: r) := by rw [← hgr]; simp
      have hlen : p.length + 1 = (p ++ [f]).length := by simp
      have hget2 : (p ++ f :: q ++ [new])[p.length + 1]? = some g := by rw [e3, hlen]; simp
      rw [hget2]
      dsimp only
      rw [if_neg hgf, hgs]
      dsimp only
      have hall' : ((p ++ f :: q ++ [new]).drop (p.length + 1)).all (fun g => g.name != f.name) = true := by
        rw [e3, hlen, List.drop_left, List.all_eq_true]
        intro x hx
        rcases List.mem_cons.1 hx with rfl | hx
        · simpa using hgf
        · simpa using hrf x hx
      rw [if_pos hall', hf]
    unfold update
    rw [hw]
    simp

/-- C180, negated: an event of any other kind (a link, say, or none of the kinds) is reported as a modification. -/
theorem other_is_modified (fl : Flags) (n : Nat) (h : fl.delete = false ∧ fl.rename = false) :
    action fl n n = .modified := by
  simp [action, h.1, h.2]

/-- Three files, the second and third changed: two events. -/
example : let stat : Nat → Option Meta := fun n => some (n, 0, 7)
    let fs : List Known := [⟨1, (1, 0, 7)⟩, ⟨2, (1, 0, 7)⟩, ⟨3, (1, 0, 7)⟩]
    (event stat (listed fs) {} fs {}).1 = .ok (.modified, 2) ∧
      (event stat (listed fs) {} (event stat (listed fs) {} fs {}).2.1 {}).1 = .ok (.modified, 3) := by decide

example : (event (fun n => if n = 1 then none else some (n, 0, 0)) (listed [⟨2, (2, 0, 0)⟩]) { write := true }
    [⟨1, (1, 0, 0)⟩, ⟨2, (2, 0, 0)⟩] {}).1 = .ok (.removed, 1) := by decide

end Verif.Kq.Update
