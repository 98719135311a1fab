import Verif.Wepoll.TreeAdd

/-!
# The search tree of src/wepoll.c: `tree_del`
-/

namespace Verif.Wepoll.Tree

theorem plug_id_mem (f : Frame) (up : Ctx) (t : T) : ∃ r, (plug (f :: up) t).id = some r ∧ r ∈ cids (f :: up) := by
  induction up generalizing f t with
  | nil => exact ⟨f.p, by simp [plug, Frame.fill], by simp [cids]⟩
  | cons g up ih =>
    obtain ⟨r, h1, h2⟩ := ih g (f.fill t)
    refine ⟨r, h1, ?_⟩
    rw [cids]
    simp [h2]

/-- The black root at the end. -/
theorem blacken_ok {st : St} {t : T} (h : Rep st [] t) (hrb : ∃ n, RB t n) :
    ∃ t', Rep (blacken st t.id) [] t' ∧ t'.red = false ∧ (∃ m, RB t' m) ∧ t'.ents = t.ents := by
  cases ht : t with
  | nil =>
    subst ht
    exact ⟨.nil, h, rfl, hrb, rfl⟩
  | node p c k l r =>
    rw [← ht]
    have hid : t.id = some p := by rw [ht]; rfl
    obtain ⟨st', t', e, h1, h2, h3, h4⟩ := blackRoot_ok h hid hrb
    refine ⟨t', ?_, h2, h3, h4⟩
    have hroot : st.root = some p := by rw [h.root]; exact hid
    unfold blackRoot at e
    rw [hroot] at e
    rw [hid]
    cases e
    exact h1

/-- The sibling is made black. -/
theorem delSib_ok {st : St} {f : Frame} {up : Ctx} {t : T} {n : Nat} (h : Rep st (f :: up) t) (hc : CB (f :: up) (n + 1)) :
    ∃ st' f' up' s, delSib st f.d f.p = some (st', s) ∧ f'.p = f.p ∧ f'.d = f.d ∧ Rep st' (f' :: up') t ∧ f'.sib.id = some s ∧
      f'.sib.red = false ∧ CB (f' :: up') (n + 1) ∧ (f'.c = true ∨ up' = up) ∧ (plug (f' :: up') t).ents = (plug (f :: up) t).ents := by
  obtain ⟨h1, h2, h3⟩ := hc
  obtain ⟨s, hs⟩ := rb_pos h1
  have hcell := rep_parent h
  have hred : (st.mem s).red = f.sib.red := by
    have := isRed_rep h.cx.2.1
    rw [hs] at this
    exact this
  unfold delSib
  rw [hcell, mkN_get_not, hs]
  dsimp only
  rw [hred]
  cases hr : f.sib.red with
  | false =>
    simp only [Bool.false_eq_true, if_false]
    exact ⟨st, f, up, s, rfl, rfl, rfl, h, hs, hr, ⟨h1, h2, h3⟩, Or.inr rfl, rfl⟩
  | true =>
    rw [if_pos rfl]
    have hfc : f.c = false := by
      cases hfc : f.c
      · rfl
      · have := (h2 hfc).1
        rw [hr] at this
        cases this
    rw [hfc] at h3
    simp only [Bool.false_eq_true, if_false] at h3
    obtain ⟨ks, X, Y, hsib⟩ := as_nd f.d hs
    rw [hr] at hsib
    have r0 := rep_up.1 h
    rw [Frame.fill, hsib, hfc] at r0
    have r1 := rep_setRed_child' r0 false
    have r2 := rep_setRed r1 true
    obtain ⟨st', e, r3⟩ := rep_rotate r2
    rw [e]
    dsimp only
    rw [hsib, rb_red] at h1
    obtain ⟨s', hs'⟩ := rb_pos h1.2.2.1
    have r4 : Rep st' (⟨f.d, f.p, true, f.k, X⟩ :: ⟨f.d, s, false, ks, Y⟩ :: up) t := rep_up.2 (rep_up.2 r3)
    have hcell' := rep_parent r4
    dsimp only at hcell'
    rw [hcell', mkN_get_not, hs']
    refine ⟨st', ⟨f.d, f.p, true, f.k, X⟩, ⟨f.d, s, false, ks, Y⟩ :: up, s', rfl, rfl, rfl, r4, hs', h1.1, ?_, Or.inl rfl, ?_⟩
    · refine ⟨h1.2.2.1, fun _ => ⟨h1.1, by simp, rfl⟩, ?_⟩
      simp only [if_true]
      refine ⟨h1.2.2.2, by simp, ?_⟩
      simpa using h3
    · simp only [plug]
      apply plug_ents_congr
      rw [Frame.fill, Frame.fill, Frame.fill, hsib, hfc]
      exact rot_ents _ _ _ _ _ _ _ _ _ _ _ _

/-- The outer child of the sibling is made red. -/
theorem delOuter_ok {st : St} {ctx : Ctx} {d p c k s ks n} {t X Y : T} (h : Rep st ctx (nd d p c k t (nd d s false ks X Y)))
    (hX : RB X n) (hY : RB Y n) (hr : X.red = true ∨ Y.red = true) :
    ∃ st' s' ks' X' Y', delOuter st d p s = some (st', s') ∧ Rep st' ctx (nd d p c k t (nd d s' false ks' X' Y')) ∧ RB X' n ∧ RB Y' n ∧
      Y'.red = true ∧ (nd d s' false ks' X' Y').ents = (nd d s false ks X Y).ents := by
  have hs : Rep st (⟨!d, p, c, k, t⟩ :: ctx) (nd d s false ks X Y) := by
    apply rep_down
    rw [nd_flip]
    exact h
  have hcell := rep_cell hs
  have hYr : isRed st Y.id = Y.red := by
    have := hs.foc
    rw [nd_rep] at this
    exact isRed_rep this.2.2
  unfold delOuter
  rw [hcell, mkN_get_not, hYr]
  cases hy : Y.red with
  | true =>
    rw [if_pos rfl]
    exact ⟨st, s, ks, X, Y, rfl, h, hX, hY, hy, rfl⟩
  | false =>
    simp only [Bool.false_eq_true, if_false]
    have hx : X.red = true := by
      rcases hr with q | q
      · exact q
      · rw [hy] at q; cases q
    obtain ⟨x, hxi⟩ := red_nonnil hx
    obtain ⟨kx, B, C, hXe⟩ := as_nd d hxi
    rw [hx] at hXe
    rw [mkN_get, hxi]
    dsimp only
    rw [hXe] at hs
    have r1 := rep_setRed_child hs false
    have r2 := rep_setRed r1 true
    rw [← nd_flip d s, ← nd_flip d x] at r2
    obtain ⟨st', e, r3⟩ := rep_rotate r2
    rw [e]
    dsimp only
    rw [nd_flip, nd_flip] at r3
    have hcell' := rep_parent r3
    dsimp only at hcell'
    rw [hcell', mkN_get, nd_id]
    rw [hXe, rb_red] at hX
    refine ⟨st', x, kx, B, nd d s true ks C Y, rfl, ?_, hX.2.2.1, ?_, nd_red _ _ _ _ _ _, ?_⟩
    · have := rep_up.1 r3
      rw [Frame.fill, nd_flip] at this
      exact this
    · rw [rb_red]
      exact ⟨hX.2.1, hy, hX.2.2.2, hY⟩
    · rw [hXe]
      cases d <;> simp [nd, T.ents]

/-- The loop of `tree_del`. -/
theorem delFix_ok : ∀ (fuel : Nat) {st : St} {ctx : Ctx} {t : T} {n : Nat}, Rep st ctx t → t.red = false → RB t n → CB ctx (n + 1) →
    ctx.length < fuel →
    ∃ st' x t', delFix fuel st t.id (cpar ctx) = some (st', x) ∧ Rep (blacken st' x) [] t' ∧ t'.red = false ∧ (∃ m, RB t' m) ∧
      t'.ents = (plug ctx t).ents := by
  intro fuel
  induction fuel with
  | zero => intro _ _ _ _ _ _ _ _ h; omega
  | succ fuel ih =>
  intro st ctx t n hrep hred hrb hcb hlt
  cases ctx with
  | nil =>
    have hroot : t.id = st.root := hrep.root.symm
    obtain ⟨t', h1, h2, h3, h4⟩ := blacken_ok hrep ⟨n, hrb⟩
    refine ⟨st, t.id, t', ?_, h1, h2, h3, h4⟩
    unfold delFix
    rw [if_pos hroot]
  | cons f up =>
  have hne : ¬ t.id = st.root := by
    intro e
    obtain ⟨r, h1, h2⟩ := plug_id_mem f up t
    rw [hrep.root, h1] at e
    exact List.disjoint_of_nodup_append hrep.nd (id_mem e) h2
  obtain ⟨s0, hs0⟩ := rb_pos hcb.1
  have hside : (if t.id = (st.mem f.p).left then false else true) = f.d := by
    rw [rep_parent hrep]
    cases hd : f.d
    · simp [mkN]
    · have : ¬ t.id = f.sib.id := by
        rw [hs0]
        intro e
        exact sib_ne hrep e hs0
      simp [mkN, this]
  obtain ⟨st1, f', up', s, e1, hp, hd, r1, hsid, hsred, hcb', hlen, hents⟩ := delSib_ok hrep hcb
  unfold delFix
  rw [if_neg hne]
  dsimp only [cpar]
  rw [hside, e1]
  dsimp only
  obtain ⟨ks, X, Y, hsib⟩ := as_nd f'.d hsid
  rw [hsred] at hsib
  obtain ⟨hb1, hb2, hb3⟩ := hcb'
  rw [hsib, rb_black] at hb1
  have r2 : Rep st1 up' (nd f'.d f'.p f'.c f'.k t (nd f'.d s false ks X Y)) := by
    have := rep_up.1 r1
    rw [Frame.fill, hsib] at this
    exact this
  have hpl : (plug (f :: up) t).ents = (plug up' (nd f'.d f'.p f'.c f'.k t (nd f'.d s false ks X Y))).ents := by
    rw [← hents, plug, Frame.fill, hsib]
  have rs : Rep st1 (⟨!f'.d, f'.p, f'.c, f'.k, t⟩ :: up') (nd f'.d s false ks X Y) := by
    apply rep_down
    rw [nd_flip]
    exact r2
  have hsc := rep_cell rs
  have hredX : (isRed st1 (st1.mem s).left || isRed st1 (st1.mem s).right) = (X.red || Y.red) := by
    have hf := rs.foc
    rw [nd_rep] at hf
    have hx := isRed_rep hf.2.1
    have hy := isRed_rep hf.2.2
    rw [hsc]
    cases f'.d
    · simp [mkN, hx, hy]
    · simp [mkN, hx, hy, Bool.or_comm]
  rw [hredX]
  cases hor : (X.red || Y.red) with
  | true =>
    rw [if_pos rfl]
    rw [← hd, ← hp]
    obtain ⟨st2, s', ks', X', Y', e2, r3, hX', hY', hYr, hent2⟩ := delOuter_ok r2 hb1.1 hb1.2 (by simpa using hor)
    rw [e2]
    dsimp only
    obtain ⟨z, hz⟩ := red_nonnil hYr
    obtain ⟨kz, U, V, hYe⟩ := as_nd f'.d hz
    rw [hYr] at hYe
    have rs3 : Rep st2 (⟨!f'.d, f'.p, f'.c, f'.k, t⟩ :: up') (nd f'.d s' false ks' X' Y') := by
      apply rep_down
      rw [nd_flip]
      exact r3
    have hc3 := rep_cell rs3
    have hc4 := rep_cell r3
    unfold delLast
    rw [hc3, mkN_get_not, hz]
    dsimp only
    rw [hc4, mkN_red]
    -- the three colours
    have q1 := rep_setRed rs3 f'.c
    rw [hYe] at q1
    have q2 := rep_setRed_child' q1 false
    have q3 := rep_up.1 q2
    rw [Frame.fill] at q3
    dsimp only at q3
    have q4 := rep_setRed q3 false
    rw [nd_flip] at q4
    obtain ⟨st3, e3, q5⟩ := rep_rotate q4
    rw [e3]
    dsimp only
    rw [hYe, rb_red] at hY'
    have hin : RB (nd f'.d f'.p false f'.k t X') (n + 1) := (rb_black _ _ _ _ _ _).2 ⟨hrb, hX'⟩
    have hout : RB (nd f'.d z false kz U V) (n + 1) := (rb_black _ _ _ _ _ _).2 ⟨hY'.2.2.1, hY'.2.2.2⟩
    have hplug : ∃ m, RB (plug up' (nd f'.d s' f'.c ks' (nd f'.d f'.p false f'.k t X') (nd f'.d z false kz U V))) m := by
      cases hfc : f'.c with
      | true =>
        rw [hfc] at hb3
        refine (plug_rb (n := n + 1) ?_ (by simpa using hb3) (fun _ => (hb2 hfc).2.2)).1
        rw [rb_red]
        exact ⟨nd_red _ _ _ _ _ _, nd_red _ _ _ _ _ _, hin, hout⟩
      | false =>
        rw [hfc] at hb3
        refine (plug_rb (n := n + 1 + 1) ?_ (by simpa using hb3) (by simp)).1
        rw [rb_black]
        exact ⟨hin, hout⟩
    have q6 := rep_plug.1 q5
    obtain ⟨t', h1, h2, h3, h4⟩ := blacken_ok q6 hplug
    refine ⟨st3, st3.root, t', rfl, ?_, h2, h3, ?_⟩
    · rw [q6.root]
      exact h1
    · rw [h4, hpl]
      apply plug_ents_congr
      rw [rot_ents f'.d f'.p f'.c f'.k s' false ks']
      apply nd_ents_congr rfl
      rw [← hent2]
      apply nd_ents_congr rfl
      rw [hYe]
      exact recolour_ents _ _ _ _ _ _ _
  | false =>
    simp only [Bool.false_eq_true, if_false]
    rw [Bool.or_eq_false_iff] at hor
    have r3 := rep_setRed_child' r2 true
    have hc3 := rep_cell r3
    rw [← hp, hc3, mkN_red, mkN_parent]
    have hS : RB (nd f'.d s true ks X Y) n := by
      rw [rb_red]
      exact ⟨hor.1, hor.2, hb1.1, hb1.2⟩
    cases hfc : f'.c with
    | true =>
      rw [if_pos rfl]
      rw [hfc] at hb3
      have r4 := rep_setRed r3 false
      have hplug := plug_rb (n := n + 1) ((rb_black f'.d f'.p f'.k t _ n).2 ⟨hrb, hS⟩) (by simpa using hb3) (by simp)
      refine ⟨_, _, _, rfl, rep_plug.1 r4, hplug.2 (hb2 hfc).2.1, hplug.1, ?_⟩
      rw [hpl]
      apply plug_ents_congr
      apply nd_ents_congr rfl
      exact recolour_ents _ _ _ _ _ _ _
    | false =>
      simp only [Bool.false_eq_true, if_false]
      have hlen' : up' = up := by
        rcases hlen with q | q
        · rw [hfc] at q; cases q
        · exact q
      rw [hfc] at hb3 r3
      have hb : RB (nd f'.d f'.p false f'.k t (nd f'.d s true ks X Y)) (n + 1) := (rb_black _ _ _ _ _ _).2 ⟨hrb, hS⟩
      obtain ⟨st', x, t', a1, a2, a3, a4, a5⟩ := ih r3 (nd_red _ _ _ _ _ _) hb (by simpa using hb3)
        (by rw [hlen']; simp only [List.length_cons] at hlt; omega)
      rw [nd_id] at a1
      refine ⟨st', x, t', a1, a2, a3, a4, ?_⟩
      rw [a5, hpl]
      apply plug_ents_congr
      apply nd_ents_congr rfl
      exact recolour_ents _ _ _ _ _ _ _

/-- A tree with a subtree whose parent pointer is not yet set. -/
structure Pre (st : St) (ctx : Ctx) (t : T) : Prop where
  root : st.root = (plug ctx t).id
  cx : RepC st.mem ctx t.id
  foc : ∃ par, RepT st.mem par t
  nd : (t.ids ++ cids ctx).Nodup

theorem rep_adopt {st : St} {ctx : Ctx} {t : T} (h : Pre st ctx t) : Rep (st.adopt t.id (cpar ctx)) ctx t := by
  obtain ⟨par, hf⟩ := h.foc
  refine ⟨?_, ?_, ?_, h.nd⟩
  · rw [adopt_root, h.root]
  · refine repC_congr (fun z hz => adopt_mem _ _ _ _ (fun hz' => ?_)) h.cx
    exact List.disjoint_of_nodup_append h.nd hz' hz
  · exact repT_adopt st rfl hf (List.nodup_append.1 h.nd).1

theorem delEnd_ok {fuel : Nat} {st : St} {ctx : Ctx} {t : T} {n : Nat} {red : Bool} (h : Pre st ctx t) (hrb : RB t n)
    (h1 : red = true → t.red = false ∧ CB ctx n) (h2 : red = false → CB ctx (n + 1)) (hf : ctx.length < fuel) :
    ∃ st' t', delEnd fuel st red t.id (cpar ctx) = some st' ∧ Rep st' [] t' ∧ t'.red = false ∧ (∃ m, RB t' m) ∧
      t'.ents = (plug ctx t).ents := by
  have hr := rep_adopt h
  have hir := isRed_rep hr.foc
  unfold delEnd
  dsimp only
  rw [hir]
  cases hred : red with
  | true =>
    rw [if_pos rfl]
    obtain ⟨g1, g2⟩ := h1 hred
    have hp := plug_rb hrb g2 (by simp [g1])
    refine ⟨_, _, rfl, rep_plug.1 hr, ?_, hp.1, rfl⟩
    cases ctx with
    | nil => exact g1
    | cons f up => exact hp.2 (by simp)
  | false =>
    simp only [Bool.false_eq_true, if_false]
    have h2 := h2 hred
    cases htr : t.red with
    | true =>
      rw [if_pos rfl]
      obtain ⟨p, hp⟩ := red_nonnil htr
      obtain ⟨k, x, y, he⟩ := as_nd false hp
      rw [htr] at he
      rw [hp] at hr ⊢
      rw [he] at hr hrb
      rw [rb_red] at hrb
      have r1 := rep_setRed hr false
      have hb : RB (nd false p false k x y) (n + 1) := (rb_black _ _ _ _ _ _).2 ⟨hrb.2.2.1, hrb.2.2.2⟩
      have hpl := plug_rb hb h2 (by simp)
      refine ⟨_, _, rfl, rep_plug.1 r1, ?_, hpl.1, ?_⟩
      · cases ctx with
        | nil => exact nd_red _ _ _ _ _ _
        | cons f up => exact hpl.2 (by simp)
      · rw [he]
        apply plug_ents_congr
        exact recolour_ents _ _ _ _ _ _ _
    | false =>
      simp only [Bool.false_eq_true, if_false]
      obtain ⟨st', x, t', a1, a2, a3, a4, a5⟩ := delFix_ok fuel hr htr hrb h2 hf
      rw [a1]
      exact ⟨_, t', rfl, a2, a3, a4, a5⟩

theorem leftmost_ok : ∀ (fuel : Nat) {st : St} {ctx : Ctx} {t : T} {p : Nat}, Rep st ctx t → t.id = some p → t.size < fuel →
    ∃ path x c k r, leftmost fuel st p = some x ∧ t = plug path (.node x c k .nil r) ∧ ∀ f ∈ path, f.d = false := by
  intro fuel
  induction fuel with
  | zero => intro _ _ _ _ _ _ h; omega
  | succ n ih =>
    intro st ctx t p h hid hsz
    cases t with
    | nil => cases hid
    | node q c k l r =>
      simp only [T.id, Option.some.injEq] at hid
      subst hid
      have hc := rep_par h
      simp only [T.size] at hsz
      unfold leftmost
      rw [hc]
      dsimp only
      cases hl : l with
      | nil => exact ⟨[], q, c, k, r, rfl, rfl, by simp⟩
      | node q' c' k' l' r' =>
        rw [← hl]
        have hlid : l.id = some q' := by rw [hl]; rfl
        rw [hlid]
        dsimp only
        have hd : Rep st (⟨false, q, c, k, r⟩ :: ctx) l := rep_up.2 h
        obtain ⟨path, x, c2, k2, r2, e, e2, hall⟩ := ih hd hlid (by omega)
        refine ⟨path ++ [⟨false, q, c, k, r⟩], x, c2, k2, r2, e, ?_, ?_⟩
        · have hpa : ∀ (a b : Ctx) (t : T), plug (a ++ b) t = plug b (plug a t) := by
            intro a
            induction a with
            | nil => intro b t; rfl
            | cons f a iha => intro b t; exact iha b _
          rw [hpa, ← e2]
          rfl
        · intro f hf
          rw [List.mem_append, List.mem_singleton] at hf
          rcases hf with hf | rfl
          · exact hall f hf
          · rfl

theorem plug_append (a b : Ctx) (t : T) : plug (a ++ b) t = plug b (plug a t) := by
  induction a generalizing t with
  | nil => rfl
  | cons f a iha => exact iha _

theorem cids_append (a b : Ctx) : cids (a ++ b) = cids a ++ cids b := by
  induction a with
  | nil => rfl
  | cons f a ih => simp [cids, ih]

theorem cb_rename (path : Ctx) (d p c k l p' k') (ctx : Ctx) (n : Nat) (h : CB (path ++ ⟨d, p, c, k, l⟩ :: ctx) n) :
    CB (path ++ ⟨d, p', c, k', l⟩ :: ctx) n := by
  induction path generalizing n with
  | nil => exact h
  | cons f path ih =>
    obtain ⟨h1, h2, h3⟩ := h
    refine ⟨h1, ?_, ih _ h3⟩
    intro q
    obtain ⟨a, b, e⟩ := h2 q
    refine ⟨a, by simp, ?_⟩
    cases path with
    | nil => exact e
    | cons g path => exact e

/-- A part of a context, below a node given by `par`. -/
def cparD : Ctx → Ptr → Ptr
  | [], par => par
  | f :: _, _ => some f.p

def Seg (m : Nat → Node) : Ctx → Ptr → Ptr → Prop
  | [], _, _ => True
  | f :: up, h, par => m f.p = mkN f.d f.k h f.sib.id (cparD up par) f.c ∧ RepT m (some f.p) f.sib ∧ Seg m up (some f.p) par

def topD : Ctx → Ptr → Ptr
  | [], h => h
  | f :: up, _ => topD up (some f.p)

theorem cpar_append (a b : Ctx) : cpar (a ++ b) = cparD a (cpar b) := by
  cases a <;> rfl

theorem repC_append (m : Nat → Node) (a b : Ctx) (h : Ptr) : RepC m (a ++ b) h ↔ Seg m a h (cpar b) ∧ RepC m b (topD a h) := by
  induction a generalizing h with
  | nil => simp [Seg, topD]
  | cons f a ih =>
    simp only [List.cons_append, RepC, Seg, topD, ih, cpar_append]
    tauto

theorem seg_congr {m m' : Nat → Node} : ∀ {a : Ctx} {h par : Ptr}, (∀ x ∈ cids a, m' x = m x) → Seg m a h par → Seg m' a h par := by
  intro a
  induction a with
  | nil => intro _ _ _ _; trivial
  | cons f a ih =>
    intro h par hx hr
    simp only [cids] at hx
    refine ⟨?_, repT_congr (fun x q => hx x (by simp [q])) hr.2.1, ih (fun x q => hx x (by simp [q])) hr.2.2⟩
    rw [hx f.p (by simp)]
    exact hr.1

theorem seg_hole {m : Nat → Node} {f : Frame} {a : Ctx} {h par : Ptr} (hs : Seg m (f :: a) h par) (hn : (cids (f :: a)).Nodup) (x : Ptr) :
    Seg (upd m f.p ((m f.p).set f.d x)) (f :: a) x par := by
  simp only [cids, List.nodup_cons] at hn
  have hz : ∀ z ∈ f.sib.ids ++ cids a, (upd m f.p ((m f.p).set f.d x)) z = m z := fun z hz => upd_ne _ _ (fun e => hn.1 (e ▸ hz))
  refine ⟨?_, repT_congr (fun z hz' => hz z (by simp [hz'])) hs.2.1, seg_congr (fun z hz' => hz z (by simp [hz'])) hs.2.2⟩
  rw [upd_same, hs.1, mkN_set]

theorem topD_mem : ∀ {a : Ctx} {h : Ptr} {q : Nat}, a ≠ [] → topD a h = some q → q ∈ cids a := by
  intro a
  induction a with
  | nil => intro _ _ h; exact absurd rfl h
  | cons f a ih =>
    intro h q _ hq
    rw [topD] at hq
    cases a with
    | nil =>
      simp only [topD, Option.some.injEq] at hq
      simp [cids, hq]
    | cons g a =>
      have := ih (by simp) hq
      rw [cids]
      simp [this]

theorem seg_par {m : Nat → Node} {q : Nat} {par par' : Ptr} : ∀ {a : Ctx} {h : Ptr}, Seg m a h par → a ≠ [] → topD a h = some q →
    (cids a).Nodup → Seg (upd m q { m q with parent := par' }) a h par' := by
  intro a
  induction a with
  | nil => intro _ _ h; exact absurd rfl h
  | cons f a ih =>
    intro h hs _ hq hn
    have hn0 := hn
    simp only [cids, List.nodup_cons] at hn
    cases a with
    | nil =>
      simp only [topD, Option.some.injEq] at hq
      subst hq
      refine ⟨?_, ?_, trivial⟩
      · rw [upd_same, hs.1, mkN_setPar]
        rfl
      · exact repT_congr (fun z hz => upd_ne _ _ (fun e => hn.1 (by rw [← e]; simp [hz]))) hs.2.1
    | cons g a =>
      have hq' : topD (g :: a) (some f.p) = some q := hq
      have hqm := topD_mem (by simp) hq'
      have hne : f.p ≠ q := fun e => hn.1 (by rw [e]; simp [hqm])
      refine ⟨?_, ?_, ih hs.2.2 (by simp) hq' (List.nodup_append.1 hn.2).2.1⟩
      · rw [upd_ne _ _ hne, hs.1]
        rfl
      · refine repT_congr (fun z hz => upd_ne _ _ (fun e => ?_)) hs.2.1
        exact List.disjoint_of_nodup_append hn.2 hz (by rw [e]; exact hqm)

theorem plug_topD (a : Ctx) (t : T) : (plug a t).id = topD a t.id := by
  induction a generalizing t with
  | nil => rfl
  | cons f a ih =>
    rw [plug, ih, topD, Frame.fill, nd_id]

theorem all_left_ents {path : Ctx} (h : ∀ f ∈ path, f.d = false) : cl path = [] := by
  induction path with
  | nil => rfl
  | cons f path ih =>
    rw [cl, ih (fun g hg => h g (by simp [hg])), h f (by simp)]
    rfl

/-- Finding a node in a tree. -/
theorem locate {t : T} {p : Nat} (h : p ∈ t.ids) : ∃ ctx c k l r, t = plug ctx (.node p c k l r) := by
  induction t with
  | nil => simp [T.ids] at h
  | node q c k l r ihl ihr =>
    simp only [T.ids, List.mem_append, List.mem_cons] at h
    rcases h with h | rfl | h
    · obtain ⟨ctx, c', k', l', r', e⟩ := ihl h
      refine ⟨ctx ++ [⟨false, q, c, k, r⟩], c', k', l', r', ?_⟩
      rw [plug_append, ← e]
      rfl
    · exact ⟨[], c, k, l, r, rfl⟩
    · obtain ⟨ctx, c', k', l', r', e⟩ := ihr h
      refine ⟨ctx ++ [⟨true, q, c, k, l⟩], c', k', l', r', ?_⟩
      rw [plug_append, ← e]
      rfl

/-- A node with one child or none. -/
theorem del_one {st : St} {ctx : Ctx} {fuel p k n : Nat} {d c : Bool} {x : T} (h : Rep st ctx (nd d p c k x .nil))
    (hrb : RB (nd d p c k x .nil) n) (hcb : CB ctx n) (hf : ctx.length < fuel) :
    ∃ st' t', delEnd fuel (st.replace (cpar ctx) p x.id) c x.id (cpar ctx) = some st' ∧ Rep st' [] t' ∧ t'.red = false ∧
      (∃ m, RB t' m) ∧ t'.ents = cl ctx ++ x.ents ++ cr ctx := by
  obtain ⟨r1, r2, r3⟩ := rep_replace h (nd_id _ _ _ _ _ _) x.id
  have hf' := h.foc
  rw [nd_rep] at hf'
  have hn := (List.Perm.append_right (cids ctx) (nd_ids_perm d p c k x .nil)).nodup_iff.1 h.nd
  simp only [T.ids, List.append_nil, List.cons_append, List.nodup_cons] at hn
  have hpre : Pre (st.replace (cpar ctx) p x.id) ctx x := by
    refine ⟨r3 x rfl, r1, ⟨some p, repT_congr (fun z hz => r2 z (fun hz' => ?_)) hf'.2.1⟩, hn.2⟩
    exact List.disjoint_of_nodup_append hn.2 hz hz'
  rw [← plug_ents]
  cases c with
  | true =>
    rw [rb_red] at hrb
    exact delEnd_ok hpre hrb.2.2.1 (fun _ => ⟨hrb.1, hcb⟩) (by simp) hf
  | false =>
    obtain ⟨m, rfl, h1, _⟩ := rb_black' hrb
    exact delEnd_ok hpre h1 (by simp) (fun _ => hcb) hf

theorem treeDel_ok {st : St} {t : T} {fuel node : Nat} (hrep : Rep st [] t) (hg : Good t) (hf : t.size + 1 < fuel) (hn : node ∈ t.ids) :
    ∃ st' t' L R k, treeDel fuel st node = some st' ∧ Rep st' [] t' ∧ Good t' ∧ t.ents = L ++ (k, node) :: R ∧ t'.ents = L ++ R := by
  obtain ⟨ctx, c, k, l, r, ht⟩ := locate hn
  have hrep0 : Rep st ctx (.node node c k l r) := by
    rw [rep_plug, ← ht]
    exact hrep
  have hcell := rep_par hrep0
  have hlen : ctx.length < fuel := by
    have := ctx_len ctx (.node node c k l r)
    rw [← ht] at this
    omega
  -- sortedness of what is left
  have sorted : ∀ L R : List (Nat × Nat), t.ents = L ++ (k, node) :: R → (L ++ R).Pairwise (fun a b => a.1 < b.1) := by
    intro L R e
    have := hg.2.2
    rw [e, List.pairwise_append, List.pairwise_cons] at this
    rw [List.pairwise_append]
    exact ⟨this.1, this.2.1.2, fun a ha b hb => this.2.2 a ha b (by simp [hb])⟩
  obtain ⟨n, hrb, hcb, _⟩ := unplug_rb (ctx := ctx) (t := .node node c k l r) (by rw [← ht]; exact hg.1) (by rw [← ht]; exact hg.2.1)
  have hents : t.ents = cl ctx ++ (l.ents ++ (k, node) :: r.ents) ++ cr ctx := by
    rw [ht, plug_ents]
    rfl
  unfold treeDel
  rw [hcell]
  dsimp only
  cases hl : l with
  | nil =>
    subst hl
    obtain ⟨st', t', e, h1, h2, h3, h4⟩ := del_one (d := true) (x := r) (fuel := fuel) hrep0 hrb hcb hlen
    refine ⟨st', t', cl ctx, r.ents ++ cr ctx, k, e, h1, ⟨h2, h3, ?_⟩, ?_, ?_⟩
    · rw [h4, List.append_assoc]
      exact sorted _ _ (by rw [hents]; simp [T.ents])
    · rw [hents]; simp [T.ents]
    · rw [h4]; simp
  | node lp lc lk ll lr =>
    rw [← hl]
    have hlid : l.id = some lp := by rw [hl]; rfl
    rw [hlid]
    cases hr : r with
    | nil =>
      subst hr
      obtain ⟨st', t', e, h1, h2, h3, h4⟩ := del_one (d := false) (x := l) (fuel := fuel) hrep0 hrb hcb hlen
      rw [hlid] at e
      refine ⟨st', t', cl ctx ++ l.ents, cr ctx, k, e, h1, ⟨h2, h3, ?_⟩, ?_, ?_⟩
      · rw [h4]
        exact sorted _ _ (by rw [hents]; simp [T.ents])
      · rw [hents]; simp [T.ents]
      · rw [h4]
    | node rp rc rk rl rr =>
      rw [← hr]
      have hrid : r.id = some rp := by rw [hr]; rfl
      rw [hrid]
      dsimp only
      have hrepr : Rep st (⟨true, node, c, k, l⟩ :: ctx) r := rep_up.2 hrep0
      have hsz : r.size < fuel := by
        have h1 : t.size = (T.node node c k l r).size + (cids ctx).length := by
          rw [size_ids, size_ids, ht, (plug_ids_perm ctx _).length_eq, List.length_append]
        simp only [T.size] at h1
        omega
      obtain ⟨path, x, cn, kn, rn, e, e2, hall⟩ := leftmost_ok fuel hrepr hrid hsz
      rw [e]
      dsimp only
      -- the place of the next node
      have hfull : Rep st (path ++ ⟨true, node, c, k, l⟩ :: ctx) (.node x cn kn .nil rn) := by
        rw [rep_plug, plug_append, ← e2, ← rep_plug]
        exact hrepr
      have hplugt : plug (path ++ ⟨true, node, c, k, l⟩ :: ctx) (.node x cn kn .nil rn) = t := by
        rw [plug_append, ← e2, ht]
        rfl
      obtain ⟨m, hm1, hm2, _⟩ := unplug_rb (ctx := path ++ ⟨true, node, c, k, l⟩ :: ctx) (t := .node x cn kn .nil rn)
        (by rw [hplugt]; exact hg.1) (by rw [hplugt]; exact hg.2.1)
      have hcx := hfull.cx
      rw [repC_append] at hcx
      obtain ⟨hseg, hup⟩ := hcx
      have hupc := hup.1
      have hupl := hup.2.1
      have hupr := hup.2.2
      have hxcell := rep_par hfull
      have hnd := hfull.nd
      rw [cids_append] at hnd
      simp only [cids, T.ids, List.nil_append, List.cons_append] at hnd
      have hndx := (List.nodup_cons.1 hnd).1
      have hnd1 := (List.nodup_cons.1 hnd).2
      have hnd2 := (List.nodup_append.1 hnd1).2.1
      have hnd3 := (List.nodup_append.1 hnd2).2.1
      have hnd4 := (List.nodup_cons.1 hnd3).2
      have hndp := (List.nodup_cons.1 hnd3).1
      have nl : l.ids.Nodup := (List.nodup_append.1 hnd4).1
      have npath : (cids path).Nodup := (List.nodup_append.1 hnd2).1
      simp only [List.mem_append, List.mem_cons, not_or] at hndx hndp
      obtain ⟨x_rn, x_path, x_node, x_l, x_ctx⟩ := hndx
      obtain ⟨node_l, node_ctx⟩ := hndp
      have rn_path : ∀ z ∈ rn.ids, z ∉ cids path := fun z h1 h2 => List.disjoint_of_nodup_append hnd1 h1 (by simp [h2])
      have rn_l : ∀ z ∈ rn.ids, z ∉ l.ids := fun z h1 h2 => List.disjoint_of_nodup_append hnd1 h1 (by simp [h2])
      have rn_ctx : ∀ z ∈ rn.ids, z ∉ cids ctx := fun z h1 h2 => List.disjoint_of_nodup_append hnd1 h1 (by simp [h2])
      have path_l : ∀ z ∈ cids path, z ∉ l.ids := fun z h1 h2 => List.disjoint_of_nodup_append hnd2 h1 (by simp [h2])
      have path_ctx : ∀ z ∈ cids path, z ∉ cids ctx := fun z h1 h2 => List.disjoint_of_nodup_append hnd2 h1 (by simp [h2])
      have l_ctx : ∀ z ∈ l.ids, z ∉ cids ctx := fun z h1 h2 => List.disjoint_of_nodup_append hnd4 h1 h2
      have lp_l : lp ∈ l.ids := id_mem hlid
      -- the first steps
      obtain ⟨r1, r2, r3⟩ := rep_replace hrep0 rfl (some x)
      obtain ⟨s1, hs1⟩ : ∃ s1, st.replace (cpar ctx) node (some x) = s1 := ⟨_, rfl⟩
      rw [hs1] at r1 r2 r3 ⊢
      have c1 : s1.mem x = ⟨kn, none, rn.id, cpar (path ++ ⟨true, node, c, k, l⟩ :: ctx), cn⟩ := (r2 x x_ctx).trans hxcell
      have c1n : s1.mem node = ⟨k, l.id, r.id, cpar ctx, c⟩ := (r2 node node_ctx).trans hcell
      rw [c1, c1n]
      dsimp only
      obtain ⟨s2, hs2⟩ : ∃ s2, s1.setRed x c = s2 := ⟨_, rfl⟩
      rw [hs2]
      obtain ⟨s3, hs3⟩ : ∃ s3, s2.setCh x false (some lp) = s3 := ⟨_, rfl⟩
      rw [hs3]
      obtain ⟨s4, hs4⟩ : ∃ s4, s3.setPar lp (some x) = s4 := ⟨_, rfl⟩
      rw [hs4]
      have hxlp : x ≠ lp := fun q => x_l (q ▸ lp_l)
      have c2 : s2.mem x = ⟨kn, none, rn.id, cpar (path ++ ⟨true, node, c, k, l⟩ :: ctx), c⟩ := by
        rw [← hs2]
        show upd s1.mem x _ x = _
        rw [upd_same, c1]
      have c3 : s3.mem x = ⟨kn, some lp, rn.id, cpar (path ++ ⟨true, node, c, k, l⟩ :: ctx), c⟩ := by
        rw [← hs3]
        show upd s2.mem x _ x = _
        rw [upd_same, c2]
        rfl
      have c4 : s4.mem x = ⟨kn, some lp, rn.id, cpar (path ++ ⟨true, node, c, k, l⟩ :: ctx), c⟩ := by
        rw [← hs4]
        show upd s3.mem lp _ x = _
        rw [upd_ne _ _ hxlp, c3]
      have z3 : ∀ z, z ≠ x → s3.mem z = s1.mem z := by
        intro z hz
        rw [← hs3, ← hs2]
        show upd _ x _ z = _
        rw [upd_ne _ _ hz]
        exact upd_ne _ _ hz
      have z4 : ∀ z, z ≠ x → z ≠ lp → s4.mem z = s1.mem z := by
        intro z h1 h2
        rw [← hs4]
        show upd _ lp _ z = _
        rw [upd_ne _ _ h2, z3 z h1]
      have l4 : RepT s4.mem (some x) l := by
        have h0 : RepT s3.mem (some node) l := by
          refine repT_congr (fun z hz => ?_) hupl
          rw [z3 z (fun q => x_l (q ▸ hz))]
          exact r2 z (l_ctx z hz)
        have h1 := repT_adopt (par' := some x) s3 rfl h0 nl
        rw [hlid] at h1
        rw [← hs4]
        exact h1
      have ctx4 : RepC s4.mem ctx (some x) :=
        repC_congr (fun z hz => z4 z (fun q => x_ctx (q ▸ hz)) (fun q => l_ctx lp lp_l (q ▸ hz))) r1
      have rn4 : RepT s4.mem (some x) rn := by
        have h0 := hfull.foc.2.2
        refine repT_congr (fun z hz => ?_) h0
        rw [z4 z (fun q => x_rn (q ▸ hz)) (fun q => rn_l z hz (q ▸ lp_l))]
        exact r2 z (rn_ctx z hz)
      have seg4 : Seg s4.mem path (some x) (some node) := by
        refine seg_congr (fun z hz => ?_) hseg
        rw [z4 z (fun q => x_path (q ▸ hz)) (fun q => path_l z hz (q ▸ lp_l))]
        exact r2 z (path_ctx z hz)
      have root4 : s4.root = s1.root := by rw [← hs4, ← hs3, ← hs2]; rfl
      have n4 : s4.mem node = ⟨k, l.id, r.id, cpar ctx, c⟩ := by
        rw [z4 node (fun q => x_node q.symm) (fun q => node_l (q ▸ lp_l)), c1n]
      have hrt : topD path (some x) = some rp := by
        rw [← hrid, e2, plug_topD]
        rfl
      -- the new place
      have hnd' : (rn.ids ++ cids (path ++ ⟨true, x, c, kn, l⟩ :: ctx)).Nodup := by
        rw [cids_append]
        simp only [cids]
        have h1 : (rn.ids ++ (cids path ++ (l.ids ++ cids ctx))).Nodup :=
          List.Nodup.sublist (List.Sublist.append_left (List.Sublist.append_left (List.sublist_cons_self _ _) _) _) hnd1
        have h2 : (x :: (rn.ids ++ (cids path ++ (l.ids ++ cids ctx)))).Nodup := by
          rw [List.nodup_cons]
          refine ⟨?_, h1⟩
          simp only [List.mem_append, not_or]
          exact ⟨x_rn, x_path, x_l, x_ctx⟩
        have h3 : (rn.ids ++ (cids path ++ x :: (l.ids ++ cids ctx))).Perm (x :: (rn.ids ++ (cids path ++ (l.ids ++ cids ctx)))) :=
          (List.Perm.append_left _ List.perm_middle).trans List.perm_middle
        exact h3.nodup_iff.2 h2
      have hrbn : RB rn (if cn then m else m - 1) ∧ (cn = true → rn.red = false) ∧ (cn = false → 1 ≤ m) := by
        rcases hm1 with ⟨hc, _, h2, _, h4⟩ | ⟨hc, m', rfl, _, h4⟩
        · rw [hc]
          exact ⟨h4, fun _ => h2, by simp⟩
        · rw [hc]
          exact ⟨by simpa using h4, by simp, fun _ => by omega⟩
      have hcb' := cb_rename path true node c k l x kn ctx m hm2
      have hlen' : (path ++ (⟨true, x, c, kn, l⟩ : Frame) :: ctx).length < fuel := by
        have := ctx_len (path ++ ⟨true, node, c, k, l⟩ :: ctx) (.node x cn kn .nil rn)
        rw [hplugt] at this
        simp only [List.length_append, List.length_cons] at this ⊢
        omega
      have fin : ∀ s : St, Pre s (path ++ ⟨true, x, c, kn, l⟩ :: ctx) rn →
          ∃ st' t' L R k', delEnd fuel s cn rn.id (cpar (path ++ ⟨true, x, c, kn, l⟩ :: ctx)) = some st' ∧ Rep st' [] t' ∧ Good t' ∧
            t.ents = L ++ (k', node) :: R ∧ t'.ents = L ++ R := by
        intro s hpre
        obtain ⟨st', t', a1, a2, a3, a4, a5⟩ := delEnd_ok (fuel := fuel) (red := cn) hpre hrbn.1
          (fun q => ⟨hrbn.2.1 q, by rw [q, if_pos rfl]; exact hcb'⟩)
          (fun q => by
            have := hrbn.2.2 q
            rw [q]
            simp only [Bool.false_eq_true, if_false]
            rw [show m - 1 + 1 = m by omega]
            exact hcb') hlen'
        have h5 : t'.ents = (cl ctx ++ l.ents) ++ ((kn, x) :: (rn.ents ++ cr path) ++ cr ctx) := by
          rw [a5, plug_append, plug, plug_ents, Frame.fill]
          simp only [nd, if_true, T.ents]
          rw [plug_ents, all_left_ents hall]
          simp
        have h6 : t.ents = (cl ctx ++ l.ents) ++ (k, node) :: ((kn, x) :: (rn.ents ++ cr path) ++ cr ctx) := by
          rw [hents, e2, plug_ents, all_left_ents hall]
          simp [T.ents]
        refine ⟨st', t', _, _, k, a1, a2, ⟨a3, a4, ?_⟩, h6, h5⟩
        rw [h5]
        exact sorted _ _ h6
      by_cases hxr : x = rp
      · -- the right child itself
        have hpath : path = [] := by
          cases hp : path with
          | nil => rfl
          | cons f path' =>
            exfalso
            have := topD_mem (by rw [hp]; simp) hrt
            rw [← hxr] at this
            exact x_path this
        rw [if_neg (by simpa using hxr)]
        subst hpath
        have c5 : (s4.setPar x (cpar ctx)).mem x = ⟨kn, some lp, rn.id, cpar ctx, c⟩ := by
          show upd s4.mem x _ x = _
          rw [upd_same, c4]
        rw [c5]
        dsimp only
        have hz5 : ∀ z, z ≠ x → (s4.setPar x (cpar ctx)).mem z = s4.mem z := fun z hz => upd_ne _ _ hz
        apply fin
        refine ⟨?_, ⟨?_, ?_, ?_⟩, ⟨some x, ?_⟩, hnd'⟩
        · show s4.root = _
          rw [root4]
          exact r3 _ (by simp [Frame.fill])
        · rw [c5, ← hlid]
          rfl
        · exact repT_congr (fun z hz => hz5 z (fun q => x_l (q ▸ hz))) l4
        · exact repC_congr (fun z hz => hz5 z (fun q => x_ctx (q ▸ hz))) ctx4
        · exact repT_congr (fun z hz => hz5 z (fun q => x_rn (q ▸ hz))) rn4
      · rw [if_pos hxr]
        cases hp : path with
        | nil =>
          exfalso
          rw [hp] at hrt
          simp only [topD, Option.some.injEq] at hrt
          exact hxr hrt
        | cons f path' =>
          rw [c4, hp]
          dsimp only [List.cons_append, cpar]
          rw [n4]
          dsimp only
          have hfd : f.d = false := hall f (by rw [hp]; simp)
          have hfp : f.p ∈ cids path := by rw [hp]; simp [cids]
          have hrpp : rp ∈ cids path := topD_mem (by rw [hp]; simp) hrt
          obtain ⟨s5, hs5⟩ : ∃ s5, s4.setPar x (cpar ctx) = s5 := ⟨_, rfl⟩
          rw [hs5]
          have c5 : s5.mem x = ⟨kn, some lp, rn.id, cpar ctx, c⟩ := by
            rw [← hs5]
            show upd s4.mem x _ x = _
            rw [upd_same, c4]
          have z5 : ∀ z, z ≠ x → s5.mem z = s4.mem z := fun z hz => by rw [← hs5]; exact upd_ne _ _ hz
          rw [c5]
          dsimp only
          obtain ⟨s6, hs6⟩ : ∃ s6, s5.setCh f.p false rn.id = s6 := ⟨_, rfl⟩
          rw [hs6]
          have z6 : ∀ z, z ≠ f.p → s6.mem z = s5.mem z := fun z hz => by rw [← hs6]; exact upd_ne _ _ hz
          have seg6 : Seg s6.mem path rn.id (some node) := by
            have h5 : Seg s5.mem path (some x) (some node) := seg_congr (fun z hz => z5 z (fun q => x_path (q ▸ hz))) seg4
            rw [hp] at h5 npath ⊢
            have := seg_hole h5 npath rn.id
            rw [hfd] at this
            rw [← hs6]
            exact this
          obtain ⟨s7, hs7⟩ : ∃ s7, s6.setCh x true (some rp) = s7 := ⟨_, rfl⟩
          rw [hs7]
          have hxf : x ≠ f.p := fun q => x_path (q ▸ hfp)
          have z7 : ∀ z, z ≠ x → s7.mem z = s6.mem z := fun z hz => by rw [← hs7]; exact upd_ne _ _ hz
          have c7 : s7.mem x = ⟨kn, some lp, some rp, cpar ctx, c⟩ := by
            rw [← hs7]
            show upd s6.mem x _ x = _
            rw [upd_same, z6 x hxf, c5]
            rfl
          have seg7 : Seg s7.mem path rn.id (some node) := seg_congr (fun z hz => z7 z (fun q => x_path (q ▸ hz))) seg6
          have hrt' : topD path rn.id = some rp := by
            rw [hp] at hrt ⊢
            exact hrt
          have seg8 := seg_par (par' := some x) seg7 (by rw [hp]; simp) hrt' npath
          obtain ⟨s8, hs8⟩ : ∃ s8, s7.setPar rp (some x) = s8 := ⟨_, rfl⟩
          rw [hs8]
          have hm8 : upd s7.mem rp { s7.mem rp with parent := some x } = s8.mem := by rw [← hs8]; rfl
          rw [hm8] at seg8
          have z8 : ∀ z, z ≠ rp → s8.mem z = s7.mem z := fun z hz => by rw [← hs8]; exact upd_ne _ _ hz
          have c8 : s8.mem x = ⟨kn, some lp, some rp, cpar ctx, c⟩ := by rw [z8 x hxr, c7]
          have zz : ∀ z, z ≠ x → z ∉ cids path → s8.mem z = s4.mem z := by
            intro z h1 h2
            rw [z8 z (fun q => h2 (q ▸ hrpp)), z7 z h1, z6 z (fun q => h2 (q ▸ hfp)), z5 z h1]
          have root8 : s8.root = s1.root := by
            rw [← root4, ← hs8, ← hs7, ← hs6, ← hs5]
            rfl
          have hcp : (some f.p : Ptr) = cpar (path ++ ⟨true, x, c, kn, l⟩ :: ctx) := by rw [hp]; rfl
          rw [hcp]
          apply fin
          refine ⟨?_, ?_, ⟨some x, ?_⟩, hnd'⟩
          · rw [root8, plug_append]
            exact r3 _ (by simp [Frame.fill])
          · rw [repC_append, hrt']
            refine ⟨seg8, ?_, ?_, ?_⟩
            · rw [c8, ← hlid]
              rfl
            · exact repT_congr (fun z hz => zz z (fun q => x_l (q ▸ hz)) (fun q => path_l z q hz)) l4
            · exact repC_congr (fun z hz => zz z (fun q => x_ctx (q ▸ hz)) (fun q => path_ctx z q hz)) ctx4
          · exact repT_congr (fun z hz => zz z (fun q => x_rn (q ▸ hz)) (rn_path z hz)) rn4

end Verif.Wepoll.Tree
