import Verif.Wepoll.Tree

/-!
# The search tree of src/wepoll.c: trees in memory

`T` is a binary tree of node numbers, colours and keys.  A place in a tree is a list of frames (`Ctx`), innermost first.  `Rep`
says that the memory holds a tree with a hole and the subtree in the hole, so that the steps of the C code can be followed at the
place where they happen.
-/

namespace Verif.Wepoll.Tree

inductive T where
  | nil
  | node (p : Nat) (c : Bool) (k : Nat) (l r : T)

def T.id : T → Ptr
  | .nil => none
  | .node p _ _ _ _ => some p

def T.red : T → Bool
  | .nil => false
  | .node _ c _ _ _ => c

def T.ids : T → List Nat
  | .nil => []
  | .node p _ _ l r => l.ids ++ p :: r.ids

/-- Keys and nodes in order. -/
def T.ents : T → List (Nat × Nat)
  | .nil => []
  | .node p _ k l r => l.ents ++ (k, p) :: r.ents

def T.size : T → Nat
  | .nil => 0
  | .node _ _ _ l r => l.size + r.size + 1

/-- A node with `x` on the side `d`. -/
def nd (d : Bool) (p : Nat) (c : Bool) (k : Nat) (x y : T) : T := if d then .node p c k y x else .node p c k x y

/-- The cell of such a node. -/
def mkN (d : Bool) (k : Nat) (x y par : Ptr) (c : Bool) : Node := if d then ⟨k, y, x, par, c⟩ else ⟨k, x, y, par, c⟩

/-- One step down: at the node `p` to the side `d`; the other child is `sib`. -/
structure Frame where
  d : Bool
  p : Nat
  c : Bool
  k : Nat
  sib : T

abbrev Ctx := List Frame

def Frame.fill (f : Frame) (t : T) : T := nd f.d f.p f.c f.k t f.sib

def plug : Ctx → T → T
  | [], t => t
  | f :: up, t => plug up (f.fill t)

def cpar : Ctx → Ptr
  | [] => none
  | f :: _ => some f.p

def cids : Ctx → List Nat
  | [] => []
  | f :: up => f.p :: (f.sib.ids ++ cids up)

def RepT (m : Nat → Node) : Ptr → T → Prop
  | _, .nil => True
  | par, .node p c k l r => m p = ⟨k, l.id, r.id, par, c⟩ ∧ RepT m (some p) l ∧ RepT m (some p) r

def RepC (m : Nat → Node) : Ctx → Ptr → Prop
  | [], _ => True
  | f :: up, h => m f.p = mkN f.d f.k h f.sib.id (cpar up) f.c ∧ RepT m (some f.p) f.sib ∧ RepC m up (some f.p)

/-- The memory holds the tree `plug ctx t`, and its nodes are different. -/
structure Rep (st : St) (ctx : Ctx) (t : T) : Prop where
  root : st.root = (plug ctx t).id
  cx : RepC st.mem ctx t.id
  foc : RepT st.mem (cpar ctx) t
  nd : (t.ids ++ cids ctx).Nodup

/-! ## Simple facts -/

@[simp] theorem nd_id (d p c k x y) : (nd d p c k x y).id = some p := by cases d <;> rfl

@[simp] theorem nd_red (d p c k x y) : (nd d p c k x y).red = c := by cases d <;> rfl

theorem nd_ids_perm (d p c k) (x y : T) : (nd d p c k x y).ids.Perm (p :: (x.ids ++ y.ids)) := by
  cases d
  · simp only [nd, T.ids, Bool.false_eq_true, if_false]
    exact List.perm_middle
  · simp only [nd, T.ids, if_true]
    exact List.perm_middle.trans ((List.perm_append_comm).cons _)

theorem nd_rep (m : Nat → Node) (par : Ptr) (d p c k) (x y : T) :
    RepT m par (nd d p c k x y) ↔ m p = mkN d k x.id y.id par c ∧ RepT m (some p) x ∧ RepT m (some p) y := by
  cases d
  · simp [nd, RepT, mkN]
  · simp only [nd, RepT, mkN, if_true]
    tauto

@[simp] theorem mkN_get (d k x y par c) : (mkN d k x y par c).get d = x := by cases d <;> rfl
@[simp] theorem mkN_get_not (d k x y par c) : (mkN d k x y par c).get (!d) = y := by cases d <;> rfl
@[simp] theorem mkN_parent (d k x y par c) : (mkN d k x y par c).parent = par := by cases d <;> rfl
@[simp] theorem mkN_red (d k x y par c) : (mkN d k x y par c).red = c := by cases d <;> rfl
@[simp] theorem mkN_key (d k x y par c) : (mkN d k x y par c).key = k := by cases d <;> rfl
@[simp] theorem mkN_set (d k x y par c z) : (mkN d k x y par c).set d z = mkN d k z y par c := by cases d <;> rfl
@[simp] theorem mkN_set_not (d k x y par c z) : (mkN d k x y par c).set (!d) z = mkN d k x z par c := by cases d <;> rfl
theorem mkN_setPar (d k x y par c z) : { mkN d k x y par c with parent := z } = mkN d k x y z c := by cases d <;> rfl
theorem mkN_setRed (d k x y par c z) : { mkN d k x y par c with red := z } = mkN d k x y par z := by cases d <;> rfl

theorem mkN_flip (d k x y par c) : mkN (!d) k x y par c = mkN d k y x par c := by cases d <;> rfl
theorem nd_flip (d p c k x y) : nd (!d) p c k x y = nd d p c k y x := by cases d <;> rfl

theorem repT_congr {m m' : Nat → Node} : ∀ {t : T} {par : Ptr}, (∀ x ∈ t.ids, m' x = m x) → RepT m par t → RepT m' par t := by
  intro t
  induction t with
  | nil => intro par _ _; trivial
  | node p c k l r ihl ihr =>
    intro par h hr
    simp only [T.ids] at h
    refine ⟨?_, ihl (fun x hx => h x (by simp [hx])) hr.2.1, ihr (fun x hx => h x (by simp [hx])) hr.2.2⟩
    rw [h p (by simp)]
    exact hr.1

theorem repC_congr {m m' : Nat → Node} : ∀ {ctx : Ctx} {h : Ptr}, (∀ x ∈ cids ctx, m' x = m x) → RepC m ctx h → RepC m' ctx h := by
  intro ctx
  induction ctx with
  | nil => intro h _ _; trivial
  | cons f up ih =>
    intro h hx hr
    simp only [cids] at hx
    refine ⟨?_, repT_congr (fun x q => hx x (by simp [q])) hr.2.1, ih (fun x q => hx x (by simp [q])) hr.2.2⟩
    rw [hx f.p (by simp)]
    exact hr.1

/-- Moving the focus. -/
theorem rep_up {st : St} {f : Frame} {up : Ctx} {t : T} : Rep st (f :: up) t ↔ Rep st up (f.fill t) := by
  have hp : (t.ids ++ cids (f :: up)).Perm ((f.fill t).ids ++ cids up) := by
    have := (nd_ids_perm f.d f.p f.c f.k t f.sib).symm
    refine List.Perm.trans ?_ (this.append_right (cids up))
    simp only [cids]
    rw [List.cons_append, List.append_assoc]
    exact List.perm_middle
  constructor
  · intro h
    refine ⟨h.root, ?_, ?_, hp.nodup_iff.1 h.nd⟩
    · have := h.cx.2.2
      rw [Frame.fill, nd_id]
      exact this
    · rw [Frame.fill, nd_rep]
      exact ⟨h.cx.1, h.foc, h.cx.2.1⟩
  · intro h
    have hf := h.foc
    rw [Frame.fill, nd_rep] at hf
    refine ⟨h.root, ⟨hf.1, hf.2.2, ?_⟩, hf.2.1, hp.nodup_iff.2 h.nd⟩
    have := h.cx
    rw [Frame.fill, nd_id] at this
    exact this

theorem rep_down {st : St} {ctx : Ctx} {d p c k} {x y : T} (h : Rep st ctx (nd d p c k x y)) : Rep st (⟨d, p, c, k, y⟩ :: ctx) x :=
  rep_up.2 h

theorem rep_cell {st : St} {ctx : Ctx} {d p c k} {x y : T} (h : Rep st ctx (nd d p c k x y)) :
    st.mem p = mkN d k x.id y.id (cpar ctx) c := by
  have := h.foc
  rw [nd_rep] at this
  exact this.1

theorem rep_parent {st : St} {f : Frame} {up : Ctx} {t : T} (h : Rep st (f :: up) t) :
    st.mem f.p = mkN f.d f.k t.id f.sib.id (cpar up) f.c := h.cx.1

/-- `node->parent`. -/
theorem rep_par {st : St} {ctx : Ctx} {p c k} {l r : T} (h : Rep st ctx (.node p c k l r)) : st.mem p = ⟨k, l.id, r.id, cpar ctx, c⟩ :=
  h.foc.1

theorem plug_id_cons (f : Frame) (up : Ctx) (t t' : T) : (plug (f :: up) t).id = (plug (f :: up) t').id := by
  induction up generalizing f t t' with
  | nil => simp [plug, Frame.fill]
  | cons g up ih => exact ih g (f.fill t) (f.fill t')

theorem plug_id_eq {ctx : Ctx} {t t' : T} (h : t.id = t'.id) : (plug ctx t).id = (plug ctx t').id := by
  cases ctx with
  | nil => exact h
  | cons f up => exact plug_id_cons f up t t'

theorem upd_same (m : Nat → Node) (p n) : upd m p n p = n := by simp [upd]
theorem upd_ne (m : Nat → Node) {p x} (n) (h : x ≠ p) : upd m p n x = m x := by simp [upd, h]

/-- Colouring the focus. -/
theorem rep_setRed {st : St} {ctx : Ctx} {d p c k} {x y : T} (h : Rep st ctx (nd d p c k x y)) (b : Bool) :
    Rep (st.setRed p b) ctx (nd d p b k x y) := by
  have hc := rep_cell h
  have hn := h.nd
  have hpn := (List.Perm.append_right (cids ctx) (nd_ids_perm d p c k x y)).nodup_iff.1 hn
  rw [List.cons_append, List.nodup_cons] at hpn
  have hm : ∀ z ∈ (x.ids ++ y.ids) ++ cids ctx, (st.setRed p b).mem z = st.mem z := by
    intro z hz
    exact upd_ne _ _ (fun e => hpn.1 (e ▸ hz))
  have hf := h.foc
  rw [nd_rep] at hf
  refine ⟨?_, ?_, ?_, ?_⟩
  · show st.root = _
    rw [h.root]
    exact plug_id_eq (by simp)
  · rw [nd_id]
    have := h.cx
    rw [nd_id] at this
    exact repC_congr (fun z hz => hm z (by simp [hz])) this
  · rw [nd_rep]
    refine ⟨?_, repT_congr (fun z hz => hm z (by simp [hz])) hf.2.1, repT_congr (fun z hz => hm z (by simp [hz])) hf.2.2⟩
    show upd st.mem p _ p = _
    rw [upd_same, hc, mkN_setRed]
  · exact (List.Perm.append_right (cids ctx) ((nd_ids_perm d p b k x y).trans (nd_ids_perm d p c k x y).symm)).nodup_iff.2 hn

/-- The parent (or the root) gets another child in place of the focus, whatever that is. -/
theorem rep_replace {st : St} {ctx : Ctx} {t : T} {p : Nat} (h : Rep st ctx t) (hp : t.id = some p) (x : Ptr) :
    RepC (st.replace (cpar ctx) p x).mem ctx x ∧ (∀ z, z ∉ cids ctx → (st.replace (cpar ctx) p x).mem z = st.mem z) ∧
    (∀ t', t'.id = x → (st.replace (cpar ctx) p x).root = (plug ctx t').id) := by
  cases ctx with
  | nil =>
    refine ⟨trivial, fun z _ => rfl, fun t' ht => ?_⟩
    exact ht.symm
  | cons f up =>
    have hf := h.cx.1
    have hn := h.nd
    -- the sibling is another node
    have hsib : f.sib.id ≠ some p := by
      intro e
      have h1 : p ∈ t.ids := by
        cases t with
        | nil => cases hp
        | node q c k l r =>
          simp only [T.id, Option.some.injEq] at hp
          simp [T.ids, hp]
      have h2 : p ∈ f.sib.ids := by
        cases hs : f.sib with
        | nil => rw [hs] at e; cases e
        | node q c k l r =>
          rw [hs] at e
          simp only [T.id, Option.some.injEq] at e
          simp [T.ids, e]
      exact List.disjoint_of_nodup_append hn h1 (by simp [cids, h2])
    have hrep : st.replace (cpar (f :: up)) p x = st.setCh f.p f.d x := by
      unfold St.replace cpar
      dsimp only
      rw [hf, hp]
      cases hd : f.d
      · simp [mkN]
      · simp [mkN, hsib]
    have hnf := (List.nodup_append.1 hn).2.1
    simp only [cids, List.nodup_cons] at hnf
    have hm : ∀ z ∈ f.sib.ids ++ cids up, (st.setCh f.p f.d x).mem z = st.mem z := by
      intro z hz
      exact upd_ne _ _ (fun e => hnf.1 (e ▸ hz))
    rw [hrep]
    refine ⟨⟨?_, ?_, ?_⟩, ?_, ?_⟩
    · show upd st.mem f.p _ f.p = _
      rw [upd_same, hf, mkN_set]
    · exact repT_congr (fun z hz => hm z (by simp [hz])) h.cx.2.1
    · exact repC_congr (fun z hz => hm z (by simp [hz])) h.cx.2.2
    · intro z hz
      simp only [cids, List.mem_cons, not_or] at hz
      exact upd_ne _ _ hz.1
    · intro t' _
      show st.root = _
      rw [h.root]
      exact plug_id_cons _ _ _ _

/-- An adopted subtree. -/
theorem repT_adopt {m : Nat → Node} {par par' : Ptr} {t : T} (st : St) (hm : st.mem = m) (h : RepT m par t) (hn : t.ids.Nodup) :
    RepT (st.adopt t.id par').mem par' t := by
  cases t with
  | nil => trivial
  | node p c k l r =>
    simp only [T.ids] at hn
    have hn := List.perm_middle.nodup_iff.1 hn
    rw [List.nodup_cons] at hn
    have hz : ∀ z ∈ l.ids ++ r.ids, (st.adopt (some p) par').mem z = m z := by
      intro z hz
      rw [← hm]
      exact upd_ne _ _ (fun e => hn.1 (e ▸ hz))
    refine ⟨?_, repT_congr (fun z hz' => hz z (by simp [hz'])) h.2.1, repT_congr (fun z hz' => hz z (by simp [hz'])) h.2.2⟩
    show upd st.mem p _ p = _
    rw [upd_same, hm, h.1]

theorem adopt_mem (st : St) (t : T) (par : Ptr) (z : Nat) (h : z ∉ t.ids) : (st.adopt t.id par).mem z = st.mem z := by
  cases t with
  | nil => rfl
  | node p c k l r =>
    refine upd_ne _ _ (fun e => h ?_)
    rw [e]
    simp [T.ids]

theorem adopt_root (st : St) (x par : Ptr) : (st.adopt x par).root = st.root := by
  cases x <;> rfl

/-- The rotation: the child `q` of `p` on the other side comes up. -/
theorem rep_rotate {st : St} {ctx : Ctx} {d p c k q c' k'} {A B C : T}
    (h : Rep st ctx (nd d p c k A (nd d q c' k' B C))) :
    ∃ st', rotate d st p = some st' ∧ Rep st' ctx (nd d q c' k' (nd d p c k A B) C) := by
  have hf := h.foc
  rw [nd_rep, nd_rep, nd_id] at hf
  obtain ⟨hp, hA, hq, hB, hC⟩ := hf
  have hperm : ((nd d p c k A (nd d q c' k' B C)).ids).Perm (p :: (A.ids ++ (q :: (B.ids ++ C.ids)))) :=
    (nd_ids_perm _ _ _ _ _ _).trans (List.Perm.cons _ (List.Perm.append_left _ (nd_ids_perm _ _ _ _ _ _)))
  have hperm' : ((nd d q c' k' (nd d p c k A B) C).ids).Perm (p :: (A.ids ++ (q :: (B.ids ++ C.ids)))) := by
    refine (nd_ids_perm _ _ _ _ _ _).trans ?_
    refine (List.Perm.cons _ (List.Perm.append_right _ (nd_ids_perm _ _ _ _ _ _))).trans ?_
    have h1 : (q :: (p :: (A.ids ++ B.ids) ++ C.ids)).Perm (p :: q :: (A.ids ++ (B.ids ++ C.ids))) := by
      rw [List.cons_append, List.append_assoc]
      exact List.Perm.swap _ _ _
    exact h1.trans (List.Perm.cons _ List.perm_middle.symm)
  have hn := (List.Perm.append_right (cids ctx) hperm).nodup_iff.1 h.nd
  have hall := hn
  simp only [List.cons_append, List.append_assoc, List.nodup_cons, List.mem_append, List.mem_cons, not_or] at hn
  obtain ⟨⟨hpA, hpq, hpB, hpC, hpX⟩, hn⟩ := hn
  have hn2 := List.perm_middle.nodup_iff.1 hn
  simp only [List.nodup_cons, List.mem_append, not_or] at hn2
  obtain ⟨⟨hqA, hqB, hqC, hqX⟩, hrest⟩ := hn2
  have dAB : ∀ z ∈ A.ids, z ∉ B.ids := fun z hz hz' => List.disjoint_of_nodup_append hrest hz (by simp [hz'])
  have hrest2 := (List.nodup_append.1 hrest).2.1
  have nB : B.ids.Nodup := (List.nodup_append.1 hrest2).1
  have dBC : ∀ z ∈ C.ids, z ∉ B.ids := fun z hz hz' => List.disjoint_of_nodup_append hrest2 hz' (by simp [hz])
  have dBX : ∀ z ∈ cids ctx, z ∉ B.ids := fun z hz hz' => List.disjoint_of_nodup_append hrest2 hz' (by simp [hz])
  -- the steps
  obtain ⟨r1, r2, r3⟩ := rep_replace h (nd_id _ _ _ _ _ _) (some q)
  obtain ⟨s1, hs1⟩ : ∃ s1, st.replace (cpar ctx) p (some q) = s1 := ⟨_, rfl⟩
  rw [hs1] at r1 r2 r3
  have c1p : s1.mem p = mkN d k A.id (some q) (cpar ctx) c := (r2 p hpX).trans hp
  have c1q : s1.mem q = mkN d k' B.id C.id (some p) c' := (r2 q hqX).trans hq
  obtain ⟨s2, hs2⟩ : ∃ s2, s1.setPar q (cpar ctx) = s2 := ⟨_, rfl⟩
  have c2q : s2.mem q = mkN d k' B.id C.id (cpar ctx) c' := by
    rw [← hs2]
    show upd s1.mem q _ q = _
    rw [upd_same, c1q, mkN_setPar]
  have c2z : ∀ z, z ≠ q → s2.mem z = s1.mem z := fun z hz => by rw [← hs2]; exact upd_ne _ _ hz
  obtain ⟨s3, hs3⟩ : ∃ s3, s2.setPar p (some q) = s3 := ⟨_, rfl⟩
  have c3p : s3.mem p = mkN d k A.id (some q) (some q) c := by
    rw [← hs3]
    show upd s2.mem p _ p = _
    rw [upd_same, c2z p hpq, c1p, mkN_setPar]
  have c3z : ∀ z, z ≠ p → s3.mem z = s2.mem z := fun z hz => by rw [← hs3]; exact upd_ne _ _ hz
  have c3q : s3.mem q = mkN d k' B.id C.id (cpar ctx) c' := (c3z q (Ne.symm hpq)).trans c2q
  obtain ⟨s4, hs4⟩ : ∃ s4, s3.setCh p (!d) B.id = s4 := ⟨_, rfl⟩
  have c4p : s4.mem p = mkN d k A.id B.id (some q) c := by
    rw [← hs4]
    show upd s3.mem p _ p = _
    rw [upd_same, c3p, mkN_set_not]
  have c4z : ∀ z, z ≠ p → s4.mem z = s3.mem z := fun z hz => by rw [← hs4]; exact upd_ne _ _ hz
  obtain ⟨s5, hs5⟩ : ∃ s5, s4.adopt B.id (some p) = s5 := ⟨_, rfl⟩
  have c5z : ∀ z, z ∉ B.ids → s5.mem z = s4.mem z := fun z hz => by rw [← hs5]; exact adopt_mem _ _ _ _ hz
  have hres : rotate d st p = some (s5.setCh q d (some p)) := by
    unfold rotate
    rw [hp, mkN_get_not]
    dsimp only
    rw [mkN_parent, hs1, hs2, hs3, c3q, mkN_get, hs4, c4p, mkN_get_not, hs5]
  refine ⟨_, hres, ?_⟩
  obtain ⟨s6, hs6⟩ : ∃ s6, s5.setCh q d (some p) = s6 := ⟨_, rfl⟩
  rw [hs6]
  have c6z : ∀ z, z ≠ q → s6.mem z = s5.mem z := fun z hz => by rw [← hs6]; exact upd_ne _ _ hz
  have old : ∀ z, z ≠ p → z ≠ q → z ∉ B.ids → s6.mem z = s1.mem z := by
    intro z h1 h2 h3
    rw [c6z z h2, c5z z h3, c4z z h1, c3z z h1, c2z z h2]
  have c6q : s6.mem q = mkN d k' (some p) C.id (cpar ctx) c' := by
    rw [← hs6]
    show upd s5.mem q _ q = _
    rw [upd_same, c5z q hqB, c4z q (Ne.symm hpq), c3q, mkN_set]
  have c6p : s6.mem p = mkN d k A.id B.id (some q) c := by
    rw [c6z p hpq, c5z p hpB, c4p]
  have hroot : s6.root = s1.root := by
    rw [← hs6, ← hs4, ← hs3, ← hs2] at *
    show s5.root = _
    rw [← hs5, adopt_root]
    rfl
  refine ⟨?_, ?_, ?_, ?_⟩
  · rw [hroot]
    exact r3 _ (nd_id _ _ _ _ _ _)
  · rw [nd_id]
    refine repC_congr (fun z hz => ?_) r1
    refine old z ?_ ?_ (dBX z hz)
    · intro e; exact hpX (e ▸ hz)
    · intro e; exact hqX (e ▸ hz)
  · rw [nd_rep, nd_rep, nd_id]
    refine ⟨c6q, ⟨c6p, ?_, ?_⟩, ?_⟩
    · refine repT_congr (fun z hz => ?_) hA
      rw [old z (fun e => hpA (e ▸ hz)) (fun e => hqA (e ▸ hz)) (dAB z hz)]
      refine r2 z (fun hx => ?_)
      exact List.disjoint_of_nodup_append hrest hz (by simp [hx])
    · have hB1 : RepT s4.mem (some q) B := by
        refine repT_congr (fun z hz => ?_) hB
        rw [c4z z (fun e => hpB (e ▸ hz)), c3z z (fun e => hpB (e ▸ hz)), c2z z (fun e => hqB (e ▸ hz))]
        exact r2 z (fun hx => dBX z hx hz)
      have hB2 := repT_adopt (par' := some p) s4 rfl hB1 nB
      rw [hs5] at hB2
      exact repT_congr (fun z hz => c6z z (fun e => hqB (e ▸ hz))) hB2
    · refine repT_congr (fun z hz => ?_) hC
      rw [old z (fun e => hpC (e ▸ hz)) (fun e => hqC (e ▸ hz)) (dBC z hz)]
      refine r2 z (fun hx => ?_)
      exact List.disjoint_of_nodup_append (List.nodup_append.1 hrest2).2.1 hz hx
  · exact (List.Perm.append_right (cids ctx) hperm').nodup_iff.2 hall

end Verif.Wepoll.Tree
