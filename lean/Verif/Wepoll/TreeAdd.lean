import Verif.Wepoll.TreeRep

/-!
# The search tree of src/wepoll.c: colours, order, and `tree_add`
-/

namespace Verif.Wepoll.Tree

/-- No red node has a red child, and there are `n` black nodes on every way down. -/
def RB : T → Nat → Prop
  | .nil, n => n = 0
  | .node _ c _ l r, n =>
    (c = true ∧ l.red = false ∧ r.red = false ∧ RB l n ∧ RB r n) ∨ (c = false ∧ ∃ m, n = m + 1 ∧ RB l m ∧ RB r m)

def ctop : Ctx → Bool
  | [] => false
  | f :: _ => f.c

/-- The tree around a hole, for a subtree with `n` black nodes on every way. -/
def CB : Ctx → Nat → Prop
  | [], _ => True
  | f :: up, n => RB f.sib n ∧ (f.c = true → f.sib.red = false ∧ up ≠ [] ∧ ctop up = false) ∧ CB up (if f.c then n else n + 1)

/-- A tree as the code keeps it. -/
def Good (t : T) : Prop := t.red = false ∧ (∃ n, RB t n) ∧ t.ents.Pairwise (fun a b => a.1 < b.1)

/-- What is left and right of the hole. -/
def cl : Ctx → List (Nat × Nat)
  | [] => []
  | f :: up => cl up ++ (if f.d then f.sib.ents ++ [(f.k, f.p)] else [])

def cr : Ctx → List (Nat × Nat)
  | [] => []
  | f :: up => (if f.d then [] else (f.k, f.p) :: f.sib.ents) ++ cr up

theorem plug_ents (ctx : Ctx) (t : T) : (plug ctx t).ents = cl ctx ++ t.ents ++ cr ctx := by
  induction ctx generalizing t with
  | nil => simp [plug, cl, cr]
  | cons f up ih =>
    rw [plug, ih]
    cases hd : f.d <;> simp [Frame.fill, nd, T.ents, cl, cr, hd]

theorem rb_red (d p k) (x y : T) (n : Nat) : RB (nd d p true k x y) n ↔ x.red = false ∧ y.red = false ∧ RB x n ∧ RB y n := by
  cases d
  · simp [nd, RB]
  · simp only [nd, RB, if_true, true_and, Bool.true_eq_false, false_and, or_false]
    tauto

theorem rb_black (d p k) (x y : T) (n : Nat) : RB (nd d p false k x y) (n + 1) ↔ RB x n ∧ RB y n := by
  cases d
  · simp [nd, RB]
  · simp only [nd, RB, if_true, Bool.false_eq_true, false_and, false_or, true_and]
    constructor
    · rintro ⟨m, e, h1, h2⟩
      obtain rfl : m = n := by omega
      exact ⟨h2, h1⟩
    · rintro ⟨h1, h2⟩
      exact ⟨n, rfl, h2, h1⟩

theorem rb_black' {d p k} {x y : T} {n : Nat} (h : RB (nd d p false k x y) n) : ∃ m, n = m + 1 ∧ RB x m ∧ RB y m := by
  cases d
  · simp only [nd, RB, Bool.false_eq_true, if_false, false_and, false_or, true_and] at h
    exact h
  · simp only [nd, RB, if_true, Bool.false_eq_true, false_and, false_or, true_and] at h
    obtain ⟨m, e, h1, h2⟩ := h
    exact ⟨m, e, h2, h1⟩

/-- A node seen from a side. -/
theorem as_nd (d : Bool) {t : T} {p : Nat} (h : t.id = some p) : ∃ k x y, t = nd d p t.red k x y := by
  cases t with
  | nil => cases h
  | node q c k l r =>
    simp only [T.id, Option.some.injEq] at h
    subst h
    cases d
    · exact ⟨k, l, r, rfl⟩
    · exact ⟨k, r, l, rfl⟩

theorem nonnil {t : T} (h : t ≠ .nil) : ∃ p, t.id = some p := by
  cases t with
  | nil => exact absurd rfl h
  | node p c k l r => exact ⟨p, rfl⟩

theorem red_nonnil {t : T} (h : t.red = true) : ∃ p, t.id = some p := by
  cases t with
  | nil => cases h
  | node p c k l r => exact ⟨p, rfl⟩

theorem rb_pos {t : T} {n : Nat} (h : RB t (n + 1)) : ∃ p, t.id = some p := by
  cases t with
  | nil => cases h
  | node p c k l r => exact ⟨p, rfl⟩

theorem isRed_rep {st : St} {par : Ptr} {t : T} (h : RepT st.mem par t) : isRed st t.id = t.red := by
  cases t with
  | nil => rfl
  | node p c k l r =>
    show (st.mem p).red = c
    rw [h.1]

theorem id_mem {t : T} {p : Nat} (h : t.id = some p) : p ∈ t.ids := by
  cases t with
  | nil => cases h
  | node q c k l r =>
    simp only [T.id, Option.some.injEq] at h
    simp [T.ids, h]

/-- Filling the hole again. -/
theorem plug_rb {ctx : Ctx} : ∀ {t : T} {n : Nat}, RB t n → CB ctx n → (t.red = true → ctop ctx = false) →
    (∃ m, RB (plug ctx t) m) ∧ (ctx ≠ [] → (plug ctx t).red = false) := by
  induction ctx with
  | nil => intro t n h _ _; exact ⟨⟨n, h⟩, fun q => absurd rfl q⟩
  | cons f up ih =>
    intro t n ht hc hr
    obtain ⟨h1, h2, h3⟩ := hc
    cases hfc : f.c with
    | true =>
      rw [hfc] at h3
      have h2 := h2 hfc
      have htr : t.red = false := by
        cases hq : t.red
        · rfl
        · have := hr hq
          rw [ctop, hfc] at this
          cases this
      have := ih (t := f.fill t) (n := n) (by rw [Frame.fill, hfc, rb_red]; exact ⟨htr, h2.1, ht, h1⟩) (by simpa using h3)
        (fun _ => h2.2.2)
      exact ⟨this.1, fun _ => this.2 h2.2.1⟩
    | false =>
      rw [hfc] at h3
      have := ih (t := f.fill t) (n := n + 1) (by rw [Frame.fill, hfc, rb_black]; exact ⟨ht, h1⟩) (by simpa using h3)
        (fun q => by rw [Frame.fill, nd_red, hfc] at q; cases q)
      refine ⟨this.1, fun _ => ?_⟩
      cases up with
      | nil => simp [plug, Frame.fill, hfc]
      | cons g up => exact this.2 (by simp)

/-- Making a hole. -/
theorem unplug_rb {ctx : Ctx} : ∀ {t : T}, (plug ctx t).red = false → (∃ m, RB (plug ctx t) m) →
    ∃ n, RB t n ∧ CB ctx n ∧ (t.red = true → ctx ≠ [] ∧ ctop ctx = false) := by
  induction ctx with
  | nil =>
    intro t h1 h2
    obtain ⟨m, hm⟩ := h2
    exact ⟨m, hm, trivial, fun q => by simp only [plug] at h1; rw [h1] at q; cases q⟩
  | cons f up ih =>
    intro t h1 h2
    obtain ⟨n, g1, g2, g3⟩ := ih h1 h2
    cases hfc : f.c with
    | true =>
      rw [Frame.fill, hfc, rb_red] at g1
      rw [Frame.fill, nd_red, hfc] at g3
      have g3 := g3 rfl
      refine ⟨n, g1.2.2.1, ⟨g1.2.2.2, fun _ => ⟨g1.2.1, g3⟩, by simpa [hfc] using g2⟩, fun q => ?_⟩
      rw [g1.1] at q
      cases q
    | false =>
      rw [Frame.fill, hfc] at g1
      obtain ⟨m, rfl, h3, h4⟩ := rb_black' g1
      exact ⟨m, h3, ⟨h4, (fun q => by rw [hfc] at q; cases q), by simpa [hfc] using g2⟩, fun _ => ⟨by simp, hfc⟩⟩

theorem rep_plug {st : St} : ∀ {ctx : Ctx} {t : T}, Rep st ctx t ↔ Rep st [] (plug ctx t) := by
  intro ctx
  induction ctx with
  | nil => intro t; exact Iff.rfl
  | cons f up ih => intro t; rw [rep_up, ih]; rfl

/-- A sibling of the focus is another node. -/
theorem sib_ne {st : St} {f : Frame} {up : Ctx} {t : T} {p : Nat} (h : Rep st (f :: up) t) (hp : t.id = some p) : f.sib.id ≠ some p := by
  intro e
  exact List.disjoint_of_nodup_append h.nd (id_mem hp) (by simp [cids, id_mem e])

theorem side_eq {st : St} {f : Frame} {up : Ctx} {t : T} {p : Nat} (h : Rep st (f :: up) t) (hp : t.id = some p) :
    (if (st.mem f.p).left = some p then false else true) = f.d := by
  have hs := sib_ne h hp
  rw [rep_parent h, hp]
  cases hd : f.d
  · simp [mkN]
  · simp [mkN, hs]

/-- Recolouring a child of the focus. -/
theorem rep_setRed_child {st : St} {ctx : Ctx} {d p c k d' q c' k'} {x y z : T}
    (h : Rep st ctx (nd d p c k (nd d' q c' k' x y) z)) (b : Bool) :
    Rep (st.setRed q b) ctx (nd d p c k (nd d' q b k' x y) z) := by
  have h1 := rep_setRed (rep_down h) b
  exact rep_up.1 h1

theorem rep_setRed_child' {st : St} {ctx : Ctx} {d p c k d' q c' k'} {x y z : T}
    (h : Rep st ctx (nd d p c k z (nd d' q c' k' x y))) (b : Bool) :
    Rep (st.setRed q b) ctx (nd d p c k z (nd d' q b k' x y)) := by
  rw [← nd_flip] at h ⊢
  exact rep_setRed_child h b

/-- Rotating a child of the focus. -/
theorem rep_rotate_child {st : St} {ctx : Ctx} {e s cs ks d p c k q c' k'} {A B C z : T}
    (h : Rep st ctx (nd e s cs ks (nd d p c k A (nd d q c' k' B C)) z)) :
    ∃ st', rotate d st p = some st' ∧ Rep st' ctx (nd e s cs ks (nd d q c' k' (nd d p c k A B) C) z) := by
  obtain ⟨st', h1, h2⟩ := rep_rotate (rep_down h)
  exact ⟨st', h1, rep_up.1 h2⟩

theorem rot_ents (d p c k q c' k') (A B C : T) (c1 c2 : Bool) :
    (nd d q c1 k' (nd d p c2 k A B) C).ents = (nd d p c k A (nd d q c' k' B C)).ents := by
  cases d <;> simp [nd, T.ents]

theorem recolour_ents (d p c c' k) (x y : T) : (nd d p c k x y).ents = (nd d p c' k x y).ents := by
  cases d <;> rfl

theorem nd_ents_congr {d p c k} {x x' y y' : T} (hx : x.ents = x'.ents) (hy : y.ents = y'.ents) (c' : Bool) :
    (nd d p c k x y).ents = (nd d p c' k x' y').ents := by
  cases d <;> simp [nd, T.ents, hx, hy]

theorem plug_ents_congr {ctx : Ctx} {t t' : T} (h : t.ents = t'.ents) : (plug ctx t).ents = (plug ctx t').ents := by
  rw [plug_ents, plug_ents, h]

/-- The loop of `tree_add` does nothing if the parent is black. -/
theorem insFix_black {st : St} {n : Nat} {ctx : Ctx} {t : T} {p : Nat} (h : Rep st ctx t) (hp : t.id = some p) (hc : ctop ctx = false) :
    insFix (n + 1) st p = some st := by
  obtain ⟨k, x, y, e⟩ := as_nd false hp
  rw [e] at h
  have hcell := rep_cell h
  unfold insFix
  rw [hcell, mkN_parent]
  cases ctx with
  | nil => rfl
  | cons f up =>
    dsimp only [cpar]
    have hpar := rep_parent h
    rw [hpar, mkN_red]
    rw [ctop] at hc
    rw [hc]
    simp

/-- The loop of `tree_add`: a red focus becomes a good tree again. -/
theorem insFix_ok : ∀ (fuel : Nat) {st : St} {ctx : Ctx} {t : T} {p n : Nat}, Rep st ctx t → t.id = some p → t.red = true → RB t n →
    CB ctx n → ctx.length < fuel →
    ∃ st' t', insFix fuel st p = some st' ∧ Rep st' [] t' ∧ (∃ m, RB t' m) ∧ t'.ents = (plug ctx t).ents := by
  intro fuel
  induction fuel using Nat.strongRecOn with
  | _ fuel ih =>
  intro st ctx t p n hrep hid hred hrb hcb hlt
  obtain ⟨n', rfl⟩ : ∃ n', fuel = n' + 1 := ⟨fuel - 1, by omega⟩
  by_cases htop : ctop ctx = false
  · exact ⟨st, plug ctx t, insFix_black hrep hid htop, rep_plug.1 hrep, (plug_rb hrb hcb (fun _ => htop)).1, rfl⟩
  cases ctx with
  | nil => exact absurd rfl htop
  | cons f up =>
  have hfc : f.c = true := by
    rw [ctop] at htop
    cases h : f.c
    · exact absurd h htop
    · rfl
  obtain ⟨hb1, hb2, hb3⟩ := hcb
  obtain ⟨hsr, hup, htop2⟩ := hb2 hfc
  rw [hfc, if_pos rfl] at hb3
  cases up with
  | nil => exact absurd rfl hup
  | cons g up =>
  have hgc : g.c = false := htop2
  obtain ⟨hg1, _, hg3⟩ := hb3
  rw [hgc] at hg3
  simp only [Bool.false_eq_true, if_false] at hg3
  simp only [List.length_cons] at hlt
  -- the cells
  obtain ⟨kt, B, C, ht⟩ := as_nd g.d hid
  rw [hred] at ht
  have hcell : st.mem p = mkN g.d kt B.id C.id (some f.p) true := by
    rw [ht] at hrep
    exact rep_cell hrep
  have hpa := rep_parent hrep
  rw [hfc] at hpa
  have hrep1 := rep_up.1 hrep
  have hfid : (f.fill t).id = some f.p := by simp [Frame.fill]
  have hga := rep_parent hrep1
  rw [hfid, hgc] at hga
  have hside := side_eq hrep1 hfid
  have huncle : isRed st g.sib.id = g.sib.red := isRed_rep (rep_up.2 (rep_up.1 hrep1)).cx.2.1
  unfold insFix
  rw [hcell, mkN_parent]
  dsimp only
  rw [hpa, mkN_red, if_pos rfl, mkN_parent]
  dsimp only [cpar]
  rw [hside, hga, mkN_get_not, huncle]
  -- the tree above
  have hrep2 : Rep st up (nd g.d g.p false g.k (nd f.d f.p true f.k t f.sib) g.sib) := by
    have := rep_up.1 hrep1
    rw [Frame.fill, Frame.fill, hfc, hgc] at this
    exact this
  have hents : (plug (f :: g :: up) t).ents = (plug up (nd g.d g.p false g.k (nd f.d f.p true f.k t f.sib) g.sib)).ents := by
    rw [plug, plug, Frame.fill, Frame.fill, hfc, hgc]
  cases hur : g.sib.red with
  | true =>
    rw [if_pos rfl]
    obtain ⟨u, hu⟩ := red_nonnil hur
    obtain ⟨ku, X, Y, hsib⟩ := as_nd false hu
    rw [hur] at hsib
    rw [hu]
    dsimp only
    have s1 := rep_setRed_child hrep2 false
    rw [hsib] at s1
    have s2 := rep_setRed_child' s1 false
    have s3 := rep_setRed s2 true
    rw [hsib, rb_red] at hg1
    have hrb' : RB (nd g.d g.p true g.k (nd f.d f.p false f.k t f.sib) (nd false u false ku X Y)) (n + 1) := by
      rw [rb_red, rb_black, rb_black]
      exact ⟨by simp, by simp, ⟨hrb, hb1⟩, hg1.2.2.1, hg1.2.2.2⟩
    obtain ⟨st', t', r1, r2, r3, r4⟩ := ih n' (by omega) s3 (nd_id _ _ _ _ _ _) (nd_red _ _ _ _ _ _) hrb' hg3 (by omega)
    refine ⟨st', t', r1, r2, r3, ?_⟩
    rw [r4, hents]
    apply plug_ents_congr
    apply nd_ents_congr
    · exact recolour_ents _ _ _ _ _ _ _
    · rw [hsib]
      exact recolour_ents _ _ _ _ _ _ _
  | false =>
    simp only [Bool.false_eq_true, if_false]
    obtain ⟨m, rfl⟩ : ∃ m, n' = m + 1 := ⟨n' - 1, by omega⟩
    rw [ht, rb_red] at hrb
    obtain ⟨hBr, hCr, hB, hC⟩ := hrb
    by_cases hfd : f.d = g.d
    · -- a single rotation
      have hno : ¬ (mkN f.d f.k t.id f.sib.id (cpar (g :: up)) true).get (!g.d) = some p := by
        rw [← hfd, mkN_get_not]
        exact sib_ne hrep hid
      unfold insRot
      rw [hpa, if_neg hno]
      dsimp only
      have s1 := rep_setRed_child hrep2 false
      have s2 := rep_setRed s1 true
      rw [hfd, ← nd_flip, ← nd_flip g.d f.p] at s2
      obtain ⟨st', e, s3⟩ := rep_rotate s2
      rw [e]
      dsimp only
      have hrb' : RB (nd (!g.d) f.p false f.k (nd (!g.d) g.p true g.k g.sib f.sib) t) (n + 1) := by
        rw [rb_black, rb_red]
        refine ⟨⟨hur, hsr, hg1, hb1⟩, ?_⟩
        rw [ht, rb_red]
        exact ⟨hBr, hCr, hB, hC⟩
      have hfix : insFix (m + 1) st' p = some st' := by
        rw [nd_flip] at s3
        exact insFix_black (rep_down s3) hid rfl
      refine ⟨st', _, hfix, rep_plug.1 s3, (plug_rb hrb' hg3 (by simp)).1, ?_⟩
      rw [hents]
      apply plug_ents_congr
      rw [rot_ents (!g.d) g.p false g.k f.p true f.k, nd_flip, nd_flip, hfd]
    · -- two rotations
      have hfd' : f.d = !g.d := by
        revert hfd
        cases f.d <;> cases g.d <;> simp
      have hyes : (mkN f.d f.k t.id f.sib.id (cpar (g :: up)) true).get (!g.d) = some p := by
        rw [← hfd', mkN_get]
        exact hid
      unfold insRot
      rw [hpa, if_pos hyes]
      rw [hfd', nd_flip, ht] at hrep2
      obtain ⟨st1, e1, s1⟩ := rep_rotate_child hrep2
      rw [e1]
      dsimp only
      have hpar : (st1.mem f.p).parent = some p := by
        have := rep_cell (rep_down (rep_down s1))
        rw [this, mkN_parent]
        rfl
      rw [hpar]
      dsimp only
      have s2 := rep_setRed_child s1 false
      have s3 := rep_setRed s2 true
      rw [← nd_flip, ← nd_flip g.d p] at s3
      obtain ⟨st', e, s4⟩ := rep_rotate s3
      rw [e]
      dsimp only
      have hrb' : RB (nd (!g.d) p false kt (nd (!g.d) g.p true g.k g.sib C) (nd g.d f.p true f.k f.sib B)) (n + 1) := by
        rw [rb_black, rb_red, rb_red]
        exact ⟨⟨hur, hCr, hg1, hC⟩, hsr, hBr, hb1, hB⟩
      have hfix : insFix (m + 1) st' f.p = some st' := by
        rw [nd_flip] at s4
        exact insFix_black (rep_down s4) (nd_id _ _ _ _ _ _) rfl
      refine ⟨st', _, hfix, rep_plug.1 s4, (plug_rb hrb' hg3 (by simp)).1, ?_⟩
      rw [hents]
      apply plug_ents_congr
      rw [rot_ents (!g.d) g.p false g.k p true kt, nd_flip, nd_flip]
      apply nd_ents_congr
      · rw [rot_ents g.d f.p true f.k p true kt, hfd', nd_flip, ht]
      · rfl

theorem blackRoot_ok {st : St} {t : T} {p : Nat} (h : Rep st [] t) (hid : t.id = some p) (hrb : ∃ n, RB t n) :
    ∃ st' t', blackRoot st = some st' ∧ Rep st' [] t' ∧ t'.red = false ∧ (∃ m, RB t' m) ∧ t'.ents = t.ents := by
  obtain ⟨n, hrb⟩ := hrb
  obtain ⟨k, x, y, e⟩ := as_nd false hid
  have hroot : st.root = some p := by
    rw [h.root]
    exact hid
  unfold blackRoot
  rw [hroot]
  rw [e] at h hrb ⊢
  refine ⟨_, _, rfl, rep_setRed h false, nd_red _ _ _ _ _ _, ?_, recolour_ents _ _ _ _ _ _ _⟩
  cases hr : t.red with
  | false => rw [hr] at hrb; exact ⟨n, hrb⟩
  | true =>
    rw [hr, rb_red] at hrb
    exact ⟨n + 1, (rb_black _ _ _ _ _ _).2 ⟨hrb.2.2.1, hrb.2.2.2⟩⟩

/-- The search of `tree_add`. -/
theorem descend_ok : ∀ (fuel : Nat) {st : St} {ctx : Ctx} {t : T} {p key : Nat}, Rep st ctx t → t.id = some p → t.size < fuel →
    (plug ctx t).ents.Pairwise (fun a b => a.1 < b.1) →
    (∀ x ∈ cl ctx, x.1 < key) → (∀ x ∈ cr ctx, key < x.1) →
    (descend fuel st p key = some none ∧ ∃ q, (key, q) ∈ t.ents) ∨
    (∃ f up, descend fuel st p key = some (some (f.p, f.d)) ∧ Rep st (f :: up) .nil ∧ plug (f :: up) .nil = plug ctx t ∧
      (∀ x ∈ cl (f :: up), x.1 < key) ∧ (∀ x ∈ cr (f :: up), key < x.1)) := by
  intro fuel
  induction fuel with
  | zero => intro _ _ _ _ _ _ _ h; omega
  | succ n ih =>
    intro st ctx t p key hrep hid hsz hso hcl hcr
    cases t with
    | nil => cases hid
    | node q c k l r =>
      simp only [T.id, Option.some.injEq] at hid
      subst hid
      have hcell := rep_par hrep
      simp only [T.size] at hsz
      rw [plug_ents] at hso
      have hso' := (List.pairwise_append.1 (List.pairwise_append.1 hso).1).2.1
      simp only [T.ents, List.pairwise_append, List.pairwise_cons] at hso'
      unfold descend
      rw [hcell]
      dsimp only
      by_cases h1 : key < k
      · rw [if_pos h1]
        have hdown : Rep st (⟨false, q, c, k, r⟩ :: ctx) l := rep_up.2 hrep
        have hcl' : ∀ x ∈ cl (⟨false, q, c, k, r⟩ :: ctx), x.1 < key := by
          intro x hx
          simp only [cl, Bool.false_eq_true, if_false, List.append_nil] at hx
          exact hcl x hx
        have hcr' : ∀ x ∈ cr (⟨false, q, c, k, r⟩ :: ctx), key < x.1 := by
          intro x hx
          simp only [cr, Bool.false_eq_true, if_false, List.cons_append, List.mem_cons, List.mem_append] at hx
          rcases hx with rfl | hx | hx
          · exact h1
          · exact Nat.lt_trans h1 (hso'.2.1.1 x hx)
          · exact hcr x hx
        cases hl : l with
        | nil =>
          subst hl
          exact Or.inr ⟨⟨false, q, c, k, r⟩, ctx, rfl, hdown, rfl, hcl', hcr'⟩
        | node q' c' k' l' r' =>
          rw [← hl]
          have hlid : l.id = some q' := by rw [hl]; rfl
          rw [hlid]
          dsimp only
          have hso2 : (plug (⟨false, q, c, k, r⟩ :: ctx) l).ents.Pairwise (fun a b => a.1 < b.1) := by
            have : plug (⟨false, q, c, k, r⟩ :: ctx) l = plug ctx (.node q c k l r) := rfl
            rw [this, plug_ents]
            exact hso
          rcases ih hdown hlid (by omega) hso2 hcl' hcr' with ⟨e, x, hx⟩ | ⟨f, up, a1, a2, a3, a4, a5⟩
          · exact Or.inl ⟨e, x, by simp [T.ents, hx]⟩
          · exact Or.inr ⟨f, up, a1, a2, a3, a4, a5⟩
      · rw [if_neg h1]
        by_cases h2 : k < key
        · rw [if_pos h2]
          have hdown : Rep st (⟨true, q, c, k, l⟩ :: ctx) r := rep_up.2 hrep
          have hcl' : ∀ x ∈ cl (⟨true, q, c, k, l⟩ :: ctx), x.1 < key := by
            intro x hx
            simp only [cl, if_true, List.mem_append, List.mem_singleton] at hx
            rcases hx with hx | hx | rfl
            · exact hcl x hx
            · exact Nat.lt_trans (hso'.2.2 x hx (k, q) (by simp)) h2
            · exact h2
          have hcr' : ∀ x ∈ cr (⟨true, q, c, k, l⟩ :: ctx), key < x.1 := by
            intro x hx
            simp only [cr, if_true, List.nil_append] at hx
            exact hcr x hx
          cases hr : r with
          | nil =>
            subst hr
            exact Or.inr ⟨⟨true, q, c, k, l⟩, ctx, rfl, hdown, rfl, hcl', hcr'⟩
          | node q' c' k' l' r' =>
            rw [← hr]
            have hrid : r.id = some q' := by rw [hr]; rfl
            rw [hrid]
            dsimp only
            have hso2 : (plug (⟨true, q, c, k, l⟩ :: ctx) r).ents.Pairwise (fun a b => a.1 < b.1) := by
              have : plug (⟨true, q, c, k, l⟩ :: ctx) r = plug ctx (.node q c k l r) := rfl
              rw [this, plug_ents]
              exact hso
            rcases ih hdown hrid (by omega) hso2 hcl' hcr' with ⟨e, x, hx⟩ | ⟨f, up, a1, a2, a3, a4, a5⟩
            · exact Or.inl ⟨e, x, by simp [T.ents, hx]⟩
            · exact Or.inr ⟨f, up, a1, a2, a3, a4, a5⟩
        · rw [if_neg h2]
          have : k = key := by omega
          subst this
          exact Or.inl ⟨rfl, q, by simp [T.ents]⟩

/-- The new node is linked. -/
theorem attach_ok {st : St} {f : Frame} {up : Ctx} {node key : Nat} (h : Rep st (f :: up) .nil) (hn : node ∉ cids (f :: up)) :
    Rep { st.setCh f.p f.d (some node) with
      mem := upd (st.setCh f.p f.d (some node)).mem node ⟨key, none, none, some f.p, true⟩ } (f :: up) (.node node true key .nil .nil) := by
  have hpar := rep_parent h
  have hnd := h.nd
  simp only [T.ids, List.nil_append, cids, List.nodup_cons] at hnd
  have hne : f.p ≠ node := fun e => hn (by simp [cids, e])
  have hz : ∀ z ∈ f.sib.ids ++ cids up, (upd (st.setCh f.p f.d (some node)).mem node ⟨key, none, none, some f.p, true⟩) z = st.mem z := by
    intro z hz
    rw [upd_ne _ _ (fun e => hn (by simp only [cids, List.mem_cons]; right; rw [← e]; exact hz))]
    exact upd_ne _ _ (fun e => hnd.1 (e ▸ hz))
  refine ⟨?_, ⟨?_, ?_, ?_⟩, ?_, ?_⟩
  · show st.root = _
    rw [h.root]
    exact plug_id_cons _ _ _ _
  · show upd _ node _ f.p = _
    rw [upd_ne _ _ hne]
    show upd st.mem f.p _ f.p = _
    rw [upd_same, hpar, mkN_set]
    rfl
  · exact repT_congr (fun z hz' => hz z (by simp [hz'])) h.cx.2.1
  · exact repC_congr (fun z hz' => hz z (by simp [hz'])) h.cx.2.2
  · exact ⟨upd_same _ _ _, trivial, trivial⟩
  · simp only [T.ids, List.nil_append, List.cons_append, List.nodup_cons]
    exact ⟨hn, by simpa [cids] using hnd⟩

theorem ids_ents (t : T) : t.ids = t.ents.map (·.2) := by
  induction t with
  | nil => rfl
  | node p c k l r ihl ihr => simp [T.ids, T.ents, ihl, ihr]

theorem size_ids (t : T) : t.size = t.ids.length := by
  induction t with
  | nil => rfl
  | node p c k l r ihl ihr => simp [T.size, T.ids, ihl, ihr]; omega

theorem plug_ids_perm (ctx : Ctx) (t : T) : (plug ctx t).ids.Perm (t.ids ++ cids ctx) := by
  induction ctx generalizing t with
  | nil => simp [plug, cids]
  | cons f up ih =>
    rw [plug]
    refine (ih _).trans ?_
    refine (List.Perm.append_right _ (nd_ids_perm f.d f.p f.c f.k t f.sib)).trans ?_
    simp only [cids]
    rw [List.cons_append, List.append_assoc]
    exact List.perm_middle.symm

theorem ctx_len (ctx : Ctx) (t : T) : ctx.length ≤ (plug ctx t).size := by
  rw [size_ids, (plug_ids_perm ctx t).length_eq, List.length_append]
  have : ctx.length ≤ (cids ctx).length := by
    induction ctx with
    | nil => simp
    | cons f up ih => simp [cids]; omega
  omega

/-- `tree_add` of a key that is there changes nothing. -/
theorem treeAdd_dup {st : St} {t : T} {fuel node key q : Nat} (hrep : Rep st [] t) (hg : Good t) (hf : t.size + 1 < fuel)
    (hk : (key, q) ∈ t.ents) : treeAdd fuel st node key = some (-1, st) := by
  cases ht : t with
  | nil => rw [ht] at hk; simp [T.ents] at hk
  | node p c k l r =>
    have hid : t.id = some p := by rw [ht]; rfl
    have hroot : st.root = some p := by rw [hrep.root]; exact hid
    unfold treeAdd
    rw [hroot]
    dsimp only
    rcases descend_ok fuel (key := key) hrep hid (by omega) hg.2.2 (by simp [cl]) (by simp [cr]) with ⟨e, _⟩ | ⟨f, up, _, _, e, h1, h2⟩
    · rw [e]
    · exfalso
      have : (plug (f :: up) .nil).ents = t.ents := by rw [e]; rfl
      rw [plug_ents] at this
      rw [← this] at hk
      simp only [T.ents, List.append_nil, List.mem_append] at hk
      rcases hk with hk | hk
      · exact Nat.lt_irrefl _ (h1 _ hk)
      · exact Nat.lt_irrefl _ (h2 _ hk)

/-- `tree_add` of a new key. -/
theorem treeAdd_new {st : St} {t : T} {fuel node key : Nat} (hrep : Rep st [] t) (hg : Good t) (hf : t.size + 1 < fuel)
    (hk : ∀ q, (key, q) ∉ t.ents) (hn : node ∉ t.ids) :
    ∃ st' t' L R, treeAdd fuel st node key = some (0, st') ∧ Rep st' [] t' ∧ Good t' ∧ t.ents = L ++ R ∧
      t'.ents = L ++ (key, node) :: R := by
  cases ht : t with
  | nil =>
    subst ht
    have hroot : st.root = none := hrep.root
    have r0 : Rep ⟨upd st.mem node ⟨key, none, none, none, true⟩, some node⟩ [] (.node node true key .nil .nil) :=
      ⟨rfl, trivial, ⟨upd_same _ _ _, trivial, trivial⟩, by simp [T.ids, cids]⟩
    obtain ⟨st1, t1, e1, r1, b1, n1⟩ := insFix_ok fuel r0 rfl rfl (n := 0) (by simp [RB, T.red]) trivial
      (by show 0 < fuel; omega)
    have hid1 : ∃ p, t1.id = some p := by
      cases t1 with
      | nil => simp [T.ents, plug] at n1
      | node p c k l r => exact ⟨p, rfl⟩
    obtain ⟨p1, hid1⟩ := hid1
    obtain ⟨st2, t2, e2, r2, c2, b2, n2⟩ := blackRoot_ok r1 hid1 b1
    refine ⟨st2, t2, [], [], ?_, r2, ⟨c2, b2, ?_⟩, rfl, ?_⟩
    · unfold treeAdd
      rw [hroot]
      dsimp only
      rw [e1]
      dsimp only
      rw [e2]
    · rw [n2, n1]
      simp [plug, T.ents]
    · rw [n2, n1]
      simp [plug, T.ents]
  | node p c k l r =>
    rw [← ht]
    have hid : t.id = some p := by rw [ht]; rfl
    have hroot : st.root = some p := by rw [hrep.root]; exact hid
    rcases descend_ok fuel (key := key) hrep hid (by omega) hg.2.2 (by simp [cl]) (by simp [cr]) with ⟨_, q, hq⟩ | ⟨f, up, e, hr, hpl, h1, h2⟩
    · exact absurd hq (hk q)
    · have hpl' : plug (f :: up) .nil = t := hpl
      have hents : t.ents = cl (f :: up) ++ cr (f :: up) := by
        rw [← hpl', plug_ents]
        simp [T.ents]
      have hnode : node ∉ cids (f :: up) := by
        intro h
        apply hn
        rw [← hpl']
        exact (plug_ids_perm _ _).mem_iff.2 (by simp [h])
      obtain ⟨m, hm1, hm2, _⟩ := unplug_rb (ctx := f :: up) (t := .nil) (by rw [hpl']; exact hg.1) (by rw [hpl']; exact hg.2.1)
      have hm0 : m = 0 := hm1
      subst hm0
      have r0 := attach_ok (key := key) hr hnode
      have hlen := ctx_len (f :: up) .nil
      rw [hpl'] at hlen
      obtain ⟨st1, t1, e1, r1, b1, n1⟩ := insFix_ok fuel r0 rfl rfl (n := 0) (by simp [RB, T.red]) hm2 (by omega)
      have n1' : t1.ents = cl (f :: up) ++ (key, node) :: cr (f :: up) := by
        rw [n1, plug_ents]
        simp [T.ents]
      have hid1 : ∃ p, t1.id = some p := by
        cases t1 with
        | nil => simp [T.ents] at n1'
        | node p c k l r => exact ⟨p, rfl⟩
      obtain ⟨p1, hid1⟩ := hid1
      obtain ⟨st2, t2, e2, r2, c2, b2, n2⟩ := blackRoot_ok r1 hid1 b1
      refine ⟨st2, t2, _, _, ?_, r2, ⟨c2, b2, ?_⟩, hents, ?_⟩
      · unfold treeAdd
        rw [hroot]
        dsimp only
        rw [e]
        dsimp only
        rw [e1]
        dsimp only
        rw [e2]
      · rw [n2, n1']
        have hs := hg.2.2
        rw [hents, List.pairwise_append] at hs
        rw [List.pairwise_append, List.pairwise_cons]
        refine ⟨hs.1, ⟨h2, hs.2.1⟩, ?_⟩
        intro a ha b hb
        rw [List.mem_cons] at hb
        rcases hb with rfl | hb
        · exact h1 a ha
        · exact hs.2.2 a ha b hb
      · rw [n2, n1']

end Verif.Wepoll.Tree
