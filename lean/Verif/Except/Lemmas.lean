import Verif.Except.Spec

/-! # The machine follows the specification -/

namespace Verif.Except

variable {σ : Type}

def Dyn.state : Dyn → BitVec 3
  | .body => tryS
  | .catch_ _ true => catchS
  | .catch_ _ false => throwS

def Dyn.exc : Dyn → Exn
  | .body => none
  | .catch_ e _ => e

/-- A catch block keeps its exception, which may become accepted. -/
inductive DynLe : Dyn → Dyn → Prop where
  | body : DynLe .body .body
  | catch_ {e : Exn} {b b' : Bool} (h : b = true → b' = true) : DynLe (.catch_ e b) (.catch_ e b')

theorem DynLe.refl : ∀ d, DynLe d d
  | .body => .body
  | .catch_ _ _ => .catch_ id

theorem DynLe.trans {a b c : Dyn} (h : DynLe a b) (k : DynLe b c) : DynLe a c := by
  cases h with
  | body => exact k
  | catch_ h => cases k with
    | catch_ k => exact .catch_ (fun x => k (h x))

theorem DynLe.exc {a b : Dyn} (h : DynLe a b) : b.exc = a.exc := by cases h <;> rfl

structure Pre (m : M σ) (lx : Nat) (x : Exn) (d : Dyn) : Prop where
  cur : m.cur < m.top
  lxt : lx < m.top
  lxe : (m.ctx lx).exc = x
  state : (m.ctx m.cur).state = d.state
  exc : (m.ctx m.cur).exc = d.exc
  root : (m.ctx 0).exc = none

def OutOk (m : M σ) (r : Out × M σ) (d' : Dyn) : SOut → Prop
  | .norm => r.1 = .norm ∧ (r.2.ctx m.cur).exc = d'.exc
  | .ret => r.1 = .ret ∧ (r.2.ctx m.cur).exc = d'.exc
  | .exn e => if m.cur = 0 then r.1 = .dead ∧ (r.2.ctx m.cur).exc = d'.exc
      else r.1 = .jmp m.cur (d'.state ||| throwS) ∧ (r.2.ctx m.cur).exc = e

structure Post (m : M σ) (r : Out × M σ) (d : Dyn) (o : SOut) (d' : Dyn) (s' : σ) : Prop where
  cur : r.2.cur = m.cur
  top : r.2.top = m.top
  dat : r.2.dat = s'
  frame : ∀ x, x < m.top → x ≠ m.cur → r.2.ctx x = m.ctx x
  next : (r.2.ctx m.cur).next = (m.ctx m.cur).next
  stage : (r.2.ctx m.cur).stage = (m.ctx m.cur).stage
  state : (r.2.ctx m.cur).state = d'.state
  same : DynLe d d'
  out : OutOk m r d' o

def Sim (p : Prog σ) : Prop :=
  ∀ (m : M σ) (lx : Nat) (x : Exn) (d : Dyn) (o : SOut) (d' : Dyn) (s' : σ), Pre m lx x d →
    sexec p x d m.dat = some (o, d', s') → Post m (exec lx p m) d o d' s'

def SimCls (cs : Cls σ) : Prop :=
  ∀ (c : Nat) (m : M σ) (e : Exn), (m.ctx c).state = throwS → (m.ctx c).exc = e → m.cur = c → c ≠ 0 → c < m.top →
    (m.ctx 0).exc = none →
    (sexecCls cs e m.dat = none → execCls c cs m = none) ∧
    (∀ o d' s', sexecCls cs e m.dat = some (some (o, d', s')) →
      ∃ r d, execCls c cs m = some r ∧ Post m r d o d' s' ∧ d.exc = e)

theorem execCls_off {c : Nat} : ∀ {cs : Cls σ} {m : M σ}, (m.ctx c).state ≠ throwS → execCls c cs m = none
  | .nil, _, _ => by simp only [execCls]
  | .cons p b h rest, m, hne => by
    simp only [execCls]
    rw [if_neg (fun h => hne h.1)]
    exact execCls_off hne

theorem execCls_nomatch {c : Nat} : ∀ {cs : Cls σ} {m : M σ} {s : σ}, sexecCls cs (m.ctx c).exc s = none →
    execCls c cs m = none
  | .nil, _, _, _ => by simp only [execCls]
  | .cons p b h rest, m, s, hn => by
    simp only [sexecCls] at hn
    split at hn
    · exact absurd hn (by simp)
    · rename_i hm
      simp only [execCls]
      rw [if_neg (fun h => hm h.2)]
      exact execCls_nomatch hn

/-- After a normal end the preconditions hold again. -/
theorem Post.pre {m : M σ} {r : Out × M σ} {d d' : Dyn} {s' : σ} {lx : Nat} {x : Exn} (h : Pre m lx x d)
    (p : Post m r d .norm d' s') : r.1 = .norm ∧ Pre r.2 lx x d' := by
  obtain ⟨h1, h2⟩ := p.out
  refine ⟨h1, ?_⟩
  have hexc : ∀ y, y < m.top → (r.2.ctx y).exc = (m.ctx y).exc := by
    intro y hy
    by_cases hc : y = m.cur
    · rw [hc, h2, p.same.exc, h.exc]
    · rw [p.frame y hy hc]
  constructor
  · rw [p.cur, p.top]; exact h.cur
  · rw [p.top]; exact h.lxt
  · rw [hexc lx h.lxt]; exact h.lxe
  · rw [p.cur]; exact p.state
  · rw [p.cur]; exact h2
  · rw [hexc 0 (by have := h.cur; omega)]; exact h.root

theorem outOk_congr {m m1 : M σ} {r : Out × M σ} {d : Dyn} {o : SOut} (h : m1.cur = m.cur) (k : OutOk m1 r d o) :
    OutOk m r d o := by
  cases o <;> simp only [OutOk] at k ⊢ <;> rw [h] at k <;> exact k

/-- Steps follow each other. -/
theorem Post.trans {m : M σ} {r r' : Out × M σ} {d d1 d' : Dyn} {o : SOut} {s1 s' : σ}
    (p : Post m r d .norm d1 s1) (q : Post r.2 r' d1 o d' s') : Post m r' d o d' s' where
  cur := q.cur.trans p.cur
  top := q.top.trans p.top
  dat := q.dat
  frame := fun x hx hc => (q.frame x (by rw [p.top]; exact hx) (by rw [p.cur]; exact hc)).trans (p.frame x hx hc)
  next := by have := q.next; rw [p.cur] at this; exact this.trans p.next
  stage := by have := q.stage; rw [p.cur] at this; exact this.trans p.stage
  state := by have := q.state; rw [p.cur] at this; exact this
  same := p.same.trans q.same
  out := outOk_congr p.cur q.out

/-- The machine stays where it is. -/
theorem Post.refl {m : M σ} {lx : Nat} {x : Exn} {d : Dyn} (h : Pre m lx x d) (f : σ → σ) :
    Post m (.norm, { m with dat := f m.dat }) d .norm d (f m.dat) where
  cur := rfl
  top := rfl
  dat := rfl
  frame := fun _ _ _ => rfl
  next := rfl
  stage := rfl
  state := h.state
  same := DynLe.refl d
  out := ⟨rfl, h.exc⟩

theorem throw_post {m : M σ} {lx : Nat} {x : Exn} {d : Dyn} (h : Pre m lx x d) (e : Exn) :
    Post m (throwTo m e) d (.exn e) d m.dat := by
  unfold throwTo
  by_cases hc : m.cur = 0
  · rw [if_pos hc]
    exact ⟨rfl, rfl, rfl, fun _ _ _ => rfl, rfl, rfl, h.state, DynLe.refl d, by
      simp only [OutOk]; rw [if_pos hc]; exact ⟨trivial, h.exc⟩⟩
  · rw [if_neg hc]
    refine ⟨rfl, rfl, rfl, fun y _ hy => ?_, ?_, ?_, ?_, DynLe.refl d, ?_⟩
    · show Function.update m.ctx m.cur _ y = _
      rw [Function.update_of_ne hy]
    · show (Function.update m.ctx m.cur _ m.cur).next = _
      rw [Function.update_self]
    · show (Function.update m.ctx m.cur _ m.cur).stage = _
      rw [Function.update_self]
    · show (Function.update m.ctx m.cur _ m.cur).state = _
      rw [Function.update_self]; exact h.state
    · simp only [OutOk]
      rw [if_neg hc]
      refine ⟨by rw [h.state], ?_⟩
      show (Function.update m.ctx m.cur _ m.cur).exc = _
      rw [Function.update_self]

theorem seq_sim {p q : Prog σ} (hp : Sim p) (hq : Sim q) : Sim (.seq p q) := by
  intro m lx x d o d' s' h hs
  simp only [sexec] at hs
  simp only [exec]
  cases e1 : sexec p x d m.dat with
  | none => rw [e1] at hs; exact absurd hs (by simp)
  | some r1 =>
    obtain ⟨o1, d1, s1⟩ := r1
    rw [e1] at hs
    have p1 := hp m lx x d o1 d1 s1 h e1
    obtain ⟨r, hr⟩ : ∃ r, r = exec lx p m := ⟨_, rfl⟩
    rw [← hr] at p1 ⊢
    obtain ⟨out, m1⟩ := r
    cases o1 with
    | norm =>
      obtain ⟨k, pre1⟩ := Post.pre h p1
      simp only at k hs
      subst k
      rw [← p1.dat] at hs
      exact p1.trans (hq m1 lx x d1 o d' s' pre1 hs)
    | ret =>
      simp only [Option.some.injEq, Prod.mk.injEq] at hs
      obtain ⟨rfl, rfl, rfl⟩ := hs
      have := p1.out.1
      simp only at this
      subst this
      exact p1
    | exn e =>
      simp only [Option.some.injEq, Prod.mk.injEq] at hs
      obtain ⟨rfl, rfl, rfl⟩ := hs
      have := p1.out
      simp only [OutOk] at this
      split at this
      · have k := this.1
        subst k
        exact p1
      · have k := this.1
        subst k
        exact p1

theorem iter_sim {p : Prog σ} (hp : Sim p) {lx : Nat} {x : Exn} : ∀ (n : Nat) (m : M σ) (d : Dyn) (o : SOut) (d' : Dyn) (s' : σ),
    Pre m lx x d → specIter (fun d s => sexec p x d s) n d m.dat = some (o, d', s') →
    Post m (iter (fun m => exec lx p m) n m) d o d' s'
  | 0, m, d, o, d', s', h, hs => by
    simp only [specIter, Option.some.injEq, Prod.mk.injEq] at hs
    obtain ⟨rfl, rfl, rfl⟩ := hs
    exact Post.refl h id
  | n + 1, m, d, o, d', s', h, hs => by
    simp only [specIter] at hs
    simp only [iter]
    cases e1 : sexec p x d m.dat with
    | none => rw [e1] at hs; exact absurd hs (by simp)
    | some r1 =>
      obtain ⟨o1, d1, s1⟩ := r1
      rw [e1] at hs
      have p1 := hp m lx x d o1 d1 s1 h e1
      obtain ⟨r, hr⟩ : ∃ r, r = exec lx p m := ⟨_, rfl⟩
      rw [← hr] at p1 ⊢
      obtain ⟨out, m1⟩ := r
      cases o1 with
      | norm =>
        obtain ⟨k, pre1⟩ := Post.pre h p1
        simp only at k hs
        subst k
        rw [← p1.dat] at hs
        exact p1.trans (iter_sim hp n m1 d1 o d' s' pre1 hs)
      | ret =>
        simp only [Option.some.injEq, Prod.mk.injEq] at hs
        obtain ⟨rfl, rfl, rfl⟩ := hs
        have := p1.out.1
        simp only at this
        subst this
        exact p1
      | exn e =>
        simp only [Option.some.injEq, Prod.mk.injEq] at hs
        obtain ⟨rfl, rfl, rfl⟩ := hs
        have := p1.out
        simp only [OutOk] at this
        split at this
        · have k := this.1
          subst k
          exact p1
        · have k := this.1
          subst k
          exact p1

theorem caught_sim {e : Nat} {p q : Prog σ} (hp : Sim p) (hq : Sim q) : Sim (.caught e p q) := by
  intro m lx x d o d' s' h hs
  simp only [sexec] at hs
  simp only [exec, tryCaught]
  cases d with
  | body =>
    simp only [specCaught] at hs
    rw [if_neg (by rw [h.exc]; simp [Dyn.exc, isExc])]
    exact hq m lx x .body o d' s' h hs
  | catch_ y b =>
    simp only [specCaught] at hs
    by_cases hy : isExc y e
    · rw [if_pos hy] at hs
      rw [if_pos (by rw [h.exc]; simpa [Dyn.exc] using hy)]
      simp only at hs ⊢
      obtain ⟨m1, hm1⟩ : ∃ m1, m1 = m.set m.cur { m.ctx m.cur with state := catchS } := ⟨_, rfl⟩
      rw [← hm1]
      have hctx : ∀ z, z ≠ m.cur → m1.ctx z = m.ctx z := fun z hz => by
        rw [hm1]
        show Function.update m.ctx m.cur _ z = _
        rw [Function.update_of_ne hz]
      have hself : m1.ctx m.cur = { m.ctx m.cur with state := catchS } := by
        rw [hm1]
        show Function.update m.ctx m.cur _ m.cur = _
        rw [Function.update_self]
      have hcur : m1.cur = m.cur := by rw [hm1]; rfl
      have htop : m1.top = m.top := by rw [hm1]; rfl
      have hdat : m1.dat = m.dat := by rw [hm1]; rfl
      have hexc : ∀ z, (m1.ctx z).exc = (m.ctx z).exc := fun z => by
        by_cases hz : z = m.cur
        · rw [hz, hself]
        · rw [hctx z hz]
      have h1 : Pre m1 lx x (.catch_ y true) := by
        constructor
        · rw [hcur, htop]; exact h.cur
        · rw [htop]; exact h.lxt
        · rw [hexc]; exact h.lxe
        · rw [hcur, hself]; rfl
        · rw [hcur, hexc]; exact h.exc
        · rw [hexc]; exact h.root
      have pp := hp m1 lx x (.catch_ y true) o d' s' h1 (by rw [hdat]; exact hs)
      constructor
      · rw [pp.cur, hcur]
      · rw [pp.top, htop]
      · exact pp.dat
      · intro z hz hc
        rw [pp.frame z (by rw [htop]; exact hz) (by rw [hcur]; exact hc), hctx z hc]
      · have := pp.next; rw [hcur] at this; rw [this, hself]
      · have := pp.stage; rw [hcur] at this; rw [this, hself]
      · have := pp.state; rw [hcur] at this; exact this
      · exact DynLe.trans (.catch_ fun _ => rfl) pp.same
      · exact outOk_congr hcur pp.out
    · rw [if_neg hy] at hs
      rw [if_neg (by rw [h.exc]; simpa [Dyn.exc] using hy)]
      exact hq m lx x (.catch_ y b) o d' s' h hs

theorem call_sim {p : Prog σ} (hp : Sim p) : Sim (.call p) := by
  intro m lx x d o d' s' h hs
  simp only [sexec] at hs
  simp only [exec]
  cases e1 : sexec p none d m.dat with
  | none => rw [e1] at hs; exact absurd hs (by simp)
  | some r1 =>
    obtain ⟨o1, d1, s1⟩ := r1
    rw [e1] at hs
    have p1 := hp m 0 none d o1 d1 s1 ⟨h.cur, by have := h.cur; omega, h.root, h.state, h.exc, h.root⟩ e1
    obtain ⟨r, hr⟩ : ∃ r, r = exec 0 p m := ⟨_, rfl⟩
    rw [← hr] at p1 ⊢
    obtain ⟨out, m1⟩ := r
    cases o1 with
    | norm =>
      simp only [Option.some.injEq, Prod.mk.injEq] at hs
      obtain ⟨rfl, rfl, rfl⟩ := hs
      have := p1.out.1
      simp only at this
      subst this
      exact p1
    | ret =>
      simp only [Option.some.injEq, Prod.mk.injEq] at hs
      obtain ⟨rfl, rfl, rfl⟩ := hs
      have := p1.out.1
      simp only at this
      subst this
      exact ⟨p1.cur, rfl, p1.dat, p1.frame, p1.next, p1.stage, p1.state, p1.same, ⟨rfl, p1.out.2⟩⟩
    | exn e =>
      simp only [Option.some.injEq, Prod.mk.injEq] at hs
      obtain ⟨rfl, rfl, rfl⟩ := hs
      have := p1.out
      simp only [OutOk] at this
      split at this
      · have k := this.1
        subst k
        exact p1
      · have k := this.1
        subst k
        exact p1

theorem cls_sim {p : Pat} {b : Exn → σ → σ} {h : Prog σ} {rest : Cls σ} (hh : Sim h) (hr : SimCls rest) :
    SimCls (.cons p b h rest) := by
  intro c m e hst hexc hcur hc0 hct hroot
  simp only [sexecCls, execCls]
  by_cases hm : matches_ p e
  · rw [if_pos hm, if_pos ⟨hst, by rw [hexc]; exact hm⟩]
    refine ⟨fun h => absurd h (by simp), fun o d' s' hs => ?_⟩
    injection hs with hs
    refine ⟨_, .catch_ e (p ≠ .cond), rfl, ?_, rfl⟩
    obtain ⟨m1, hm1⟩ : ∃ m1 : M σ, m1 = { m.set c { m.ctx c with state := catchState p } with dat := b (m.ctx c).exc m.dat } :=
      ⟨_, rfl⟩
    rw [← hm1]
    have hctx : ∀ z, z ≠ c → m1.ctx z = m.ctx z := fun z hz => by
      rw [hm1]
      show Function.update m.ctx c _ z = _
      rw [Function.update_of_ne hz]
    have hself : m1.ctx c = { m.ctx c with state := catchState p } := by
      rw [hm1]
      show Function.update m.ctx c _ c = _
      rw [Function.update_self]
    have hcur1 : m1.cur = c := by rw [hm1]; exact hcur
    have htop : m1.top = m.top := by rw [hm1]; rfl
    have hdat : m1.dat = b e m.dat := by rw [hm1, ← hexc]
    have pre : Pre m1 c e (.catch_ e (p ≠ .cond)) := by
      constructor
      · rw [hcur1, htop]; exact hct
      · rw [htop]; exact hct
      · rw [hself]; exact hexc
      · rw [hcur1, hself]
        cases p <;> rfl
      · rw [hcur1, hself]; exact hexc
      · rw [hctx 0 (fun h => hc0 h.symm)]; exact hroot
    have pp := hh m1 c e _ o d' s' pre (by rw [hdat]; exact hs)
    constructor
    · rw [pp.cur, hcur1, hcur]
    · rw [pp.top, htop]
    · exact pp.dat
    · intro z hz hc
      rw [hcur] at hc
      rw [pp.frame z (by rw [htop]; exact hz) (by rw [hcur1]; exact hc), hctx z hc]
    · have := pp.next; rw [hcur1] at this; rw [hcur, this, hself]
    · have := pp.stage; rw [hcur1] at this; rw [hcur, this, hself]
    · have := pp.state; rw [hcur1] at this; rw [hcur]; exact this
    · exact pp.same
    · exact outOk_congr (by rw [hcur1, hcur]) pp.out
  · rw [if_neg hm, if_neg (by rw [hexc]; exact fun h => hm h.2)]
    exact hr c m e hst hexc hcur hc0 hct hroot

/-- Setting the record of the statement. -/
theorem set_ctx (m : M σ) (c : Nat) (x : Ctx) : (m.set c x).ctx c = x := by
  show Function.update m.ctx c x c = x
  rw [Function.update_self]

theorem set_ctx_ne (m : M σ) {c z : Nat} (x : Ctx) (h : z ≠ c) : (m.set c x).ctx z = m.ctx z := by
  show Function.update m.ctx c x z = _
  rw [Function.update_of_ne h]

/-- The chain of a `try` statement. -/
def one (body : Prog σ) (cs : Cls σ) (hasFin : Bool) (fb : Exn → Bool → σ → σ) (f : Prog σ) (c : Nat) : M σ → Out × M σ :=
  chain c (fun m => exec c body m) (fun m => execCls c cs m) (finally_ c hasFin fb (fun m => exec c f m))

/-- One round of the loop in which the chain ends normally. -/
theorem tryLoop_norm {o : M σ → Out × M σ} {c n : Nat} {m m' : M σ} {x : Ctx} (hx : m.ctx c = x) (hst : x.stage < 3)
    (h : o (m.set c { x with stage := x.stage + 1 }) = (.norm, m')) : tryLoop o c (n + 1) m = tryLoop o c n m' := by
  subst hx
  simp only [tryLoop]
  rw [if_pos (by rw [set_ctx]; exact Nat.succ_lt_succ hst), h]

/-- One round in which the chain jumps to the statement itself. -/
theorem tryLoop_jmp {o : M σ → Out × M σ} {c n : Nat} {m m' : M σ} {x : Ctx} {v : BitVec 3} (hx : m.ctx c = x)
    (hst : x.stage < 3) (h : o (m.set c { x with stage := x.stage + 1 }) = (.jmp c v, m')) :
    tryLoop o c (n + 1) m = tryLoop o c n (m'.set c { m'.ctx c with state := v }) := by
  subst hx
  simp only [tryLoop]
  rw [if_pos (by rw [set_ctx]; exact Nat.succ_lt_succ hst), h]
  simp only [if_true]

/-- One round in which the chain leaves the statement. -/
theorem tryLoop_out {o : M σ → Out × M σ} {c n : Nat} {m m' : M σ} {x : Ctx} {out : Out} (hx : m.ctx c = x)
    (hst : x.stage < 3) (h : o (m.set c { x with stage := x.stage + 1 }) = (out, m')) (h1 : out ≠ .norm)
    (h2 : ∀ v, out ≠ .jmp c v) : tryLoop o c (n + 1) m = (out, m') := by
  subst hx
  simp only [tryLoop]
  rw [if_pos (by rw [set_ctx]; exact Nat.succ_lt_succ hst), h]
  cases out with
  | norm => exact absurd rfl h1
  | jmp c' v =>
    simp only
    rw [if_neg]
    rintro rfl
    exact h2 v rfl
  | _ => rfl

/-- The last round. -/
theorem tryLoop_finish {o : M σ → Out × M σ} {c n : Nat} {m : M σ} {x : Ctx} (hx : m.ctx c = x) (hst : x.stage = 3) :
    tryLoop o c (n + 1) m = finish c (m.set c { x with stage := 4 }) := by
  subst hx
  simp only [tryLoop]
  rw [if_neg (by rw [set_ctx]; simp [hst])]
  simp only [hst]

/-- `try_finish` gives the outer record back and passes a pending exception on. -/
theorem finish_sim {c c0 : Nat} {m : M σ} {x : Ctx} {d : Dyn} (hctx : m.ctx c = x) (hn : x.next = c0)
    (hcur : m.cur = c ∨ m.cur = c0) (hlt : c0 < c) (hst : (m.ctx c0).state = d.state) (he : (m.ctx c0).exc = d.exc)
    (hroot : (m.ctx 0).exc = none) :
    Post { m with cur := c0, top := c } ((finish c m).1, { (finish c m).2 with top := c }) d
      (if x.state &&& throwS ≠ 0 then .exn x.exc else .norm) d m.dat := by
  have h1 : (if m.cur = c then { m with cur := (m.ctx c).next } else m) = { m with cur := c0 } := by
    rcases hcur with h | h
    · rw [if_pos h, hctx, hn]
    · rw [if_neg (by omega), ← h]
  unfold finish
  rw [h1]
  simp only [hctx]
  have pre : Pre { m with cur := c0, top := c } 0 none d := ⟨hlt, by show 0 < c; omega, hroot, hst, he, hroot⟩
  split
  · have t := throw_post pre x.exc
    unfold throwTo at t ⊢
    by_cases h0 : c0 = 0
    · rw [if_pos (by exact h0)] at t ⊢
      exact t
    · rw [if_neg (by exact h0)] at t ⊢
      exact t
  · exact Post.refl pre id

/-- The last two rounds: finally block and `try_finish`. -/
theorem tail_sim {body : Prog σ} {cs : Cls σ} {hasFin : Bool} {fb : Exn → Bool → σ → σ} {f : Prog σ} (hf : Sim f)
    {c c0 : Nat} {m : M σ} {st : BitVec 3} {e : Exn} {d : Dyn} (hctx : m.ctx c = ⟨st, 2, c0, e⟩) (hcur : m.cur = c)
    (htop : m.top = c + 1) (hlt : c0 < c) (hst : (m.ctx c0).state = d.state) (he : (m.ctx c0).exc = d.exc)
    (hroot : (m.ctx 0).exc = none)
    (hcls : ∀ m' : M σ, (m'.ctx c).state = st → (m'.ctx c).exc = e → execCls c cs m' = none) {o : SOut} {d' : Dyn} {s' : σ}
    (hs : specFinish hasFin fb (fun e d s => sexec f e d s) e (st == catchS) (st &&& throwS ≠ 0) d m.dat = some (o, d', s')) :
    Post { m with cur := c0, top := c } ((tryLoop (one body cs hasFin fb f c) c 2 m).1,
      { (tryLoop (one body cs hasFin fb f c) c 2 m).2 with top := c }) d o d' s' := by
  obtain ⟨m1, hm1⟩ : ∃ m1, m1 = m.set c ⟨st, 3, c0, e⟩ := ⟨_, rfl⟩
  have hself : m1.ctx c = ⟨st, 3, c0, e⟩ := by rw [hm1, set_ctx]
  have hoth : ∀ z, z ≠ c → m1.ctx z = m.ctx z := fun z hz => by rw [hm1, set_ctx_ne _ _ hz]
  have hone : one body cs hasFin fb f c m1 = finally_ c hasFin fb (fun m => exec c f m) m1 := by
    unfold one chain
    rw [if_neg (by rw [hself]; simp)]
    simp only [hcls m1 (by rw [hself]) (by rw [hself])]
  have hstart : m.set c { (⟨st, 2, c0, e⟩ : Ctx) with stage := (⟨st, 2, c0, e⟩ : Ctx).stage + 1 } = m1 := by rw [hm1]
  unfold specFinish at hs
  cases hasFin with
  | false =>
    have hr : tryLoop (one body cs false fb f c) c 2 m = tryLoop (one body cs false fb f c) c 1 m1 := by
      apply tryLoop_norm hctx (by simp)
      rw [hstart, hone]
      rfl
    rw [hr, tryLoop_finish hself rfl]
    simp only [Bool.false_eq_true, if_false, Option.some.injEq, Prod.mk.injEq] at hs
    obtain ⟨rfl, rfl, rfl⟩ := hs
    have k := finish_sim (c := c) (c0 := c0) (m := m1.set c ⟨st, 4, c0, e⟩) (x := ⟨st, 4, c0, e⟩) (d := d)
      (set_ctx _ _ _) rfl (Or.inl (by rw [hm1]; exact hcur)) hlt
      (by rw [set_ctx_ne _ _ (by omega), hoth _ (by omega)]; exact hst)
      (by rw [set_ctx_ne _ _ (by omega), hoth _ (by omega)]; exact he)
      (by rw [set_ctx_ne _ _ (by omega), hoth _ (by omega)]; exact hroot)
    have hdat : (m1.set c ⟨st, 4, c0, e⟩).dat = m.dat := by rw [hm1]; rfl
    rw [hdat] at k
    refine ⟨k.cur, k.top, k.dat, fun z hz hc => ?_, ?_, ?_, k.state, k.same, ?_⟩
    · rw [k.frame z hz hc]
      show (m1.set c _).ctx z = m.ctx z
      have : z < c := hz
      rw [set_ctx_ne _ _ (by omega), hoth _ (by omega)]
    · have := k.next
      rw [this]
      show ((m1.set c _).ctx c0).next = (m.ctx c0).next
      rw [set_ctx_ne _ _ (by omega), hoth _ (by omega)]
    · have := k.stage
      rw [this]
      show ((m1.set c _).ctx c0).stage = (m.ctx c0).stage
      rw [set_ctx_ne _ _ (by omega), hoth _ (by omega)]
    · have := k.out
      simp only [decide_eq_true_eq]
      exact outOk_congr rfl this
  | true =>
    simp only [if_true] at hs
    obtain ⟨m2, hm2⟩ : ∃ m2 : M σ, m2 = { m1 with cur := c0, dat := fb e (st == catchS) m1.dat } := ⟨_, rfl⟩
    have h2ctx : m2.ctx = m1.ctx := by rw [hm2]
    have h2cur : m2.cur = c0 := by rw [hm2]
    have h2top : m2.top = c + 1 := by rw [hm2, hm1]; exact htop
    have h2dat : m2.dat = fb e (st == catchS) m.dat := by rw [hm2, hm1]; rfl
    have hfin : finally_ c true fb (fun m => exec c f m) m1 = exec c f m2 := by
      unfold finally_
      rw [if_pos (by rw [hself]; simp), hself, hm2]
    have pre : Pre m2 c e d := by
      constructor
      · rw [h2cur, h2top]; omega
      · rw [h2top]; omega
      · rw [h2ctx, hself]
      · rw [h2cur, h2ctx, hoth _ (by omega)]; exact hst
      · rw [h2cur, h2ctx, hoth _ (by omega)]; exact he
      · rw [h2ctx, hoth _ (by omega)]; exact hroot
    rw [← h2dat] at hs
    cases e1 : sexec f e d m2.dat with
    | none => rw [e1] at hs; exact absurd hs (by simp)
    | some r1 =>
      obtain ⟨o1, d1, s1⟩ := r1
      rw [e1] at hs
      have p1 := hf m2 c e d o1 d1 s1 pre e1
      obtain ⟨r, hr⟩ : ∃ r, r = exec c f m2 := ⟨_, rfl⟩
      rw [← hr] at p1
      obtain ⟨out, m3⟩ := r
      have hround : one body cs true fb f c (m.set c { (⟨st, 2, c0, e⟩ : Ctx) with stage := (⟨st, 2, c0, e⟩ : Ctx).stage + 1 }) =
          (out, m3) := by rw [hstart, hone, hfin, hr]
      have h3c : m3.ctx c = ⟨st, 3, c0, e⟩ := by
        have := p1.frame c (by rw [h2top]; omega) (by rw [h2cur]; omega)
        simp only at this
        rw [this, h2ctx, hself]
      have h3cur : m3.cur = c0 := by have := p1.cur; simp only at this; rw [this, h2cur]
      have h3z : ∀ z, z < c → z ≠ c0 → m3.ctx z = m.ctx z := fun z hz hc => by
        have := p1.frame z (by rw [h2top]; omega) (by rw [h2cur]; exact hc)
        simp only at this
        rw [this, h2ctx, hoth _ (by omega)]
      have h3n : (m3.ctx c0).next = (m.ctx c0).next := by
        have := p1.next; simp only [h2cur] at this; rw [this, h2ctx, hoth _ (by omega)]
      have h3s : (m3.ctx c0).stage = (m.ctx c0).stage := by
        have := p1.stage; simp only [h2cur] at this; rw [this, h2ctx, hoth _ (by omega)]
      have h3st : (m3.ctx c0).state = d1.state := by have := p1.state; simp only [h2cur] at this; exact this
      have h3dat : m3.dat = s1 := p1.dat
      cases o1 with
      | norm =>
        simp only [Option.some.injEq, Prod.mk.injEq] at hs
        obtain ⟨rfl, rfl, rfl⟩ := hs
        obtain ⟨k1, k2⟩ := p1.pre pre
        simp only at k1 k2
        subst k1
        rw [tryLoop_norm hctx (by simp) hround, tryLoop_finish h3c rfl]
        have he3 : (m3.ctx c0).exc = d1.exc := by rw [← h3cur]; exact k2.exc
        have k := finish_sim (c := c) (c0 := c0) (m := m3.set c ⟨st, 4, c0, e⟩) (x := ⟨st, 4, c0, e⟩) (d := d1)
          (set_ctx _ _ _) rfl (Or.inr h3cur) hlt
          (by rw [set_ctx_ne _ _ (by omega)]; exact h3st)
          (by rw [set_ctx_ne _ _ (by omega)]; exact he3)
          (by rw [set_ctx_ne _ _ (by omega)]; exact k2.root)
        refine ⟨k.cur, k.top, k.dat.trans h3dat, fun z hz hc => ?_, ?_, ?_, k.state, p1.same, ?_⟩
        · rw [k.frame z hz hc]
          show (m3.set c _).ctx z = m.ctx z
          have : z < c := hz
          rw [set_ctx_ne _ _ (by omega), h3z z this hc]
        · have := k.next
          rw [this]
          show ((m3.set c _).ctx c0).next = (m.ctx c0).next
          rw [set_ctx_ne _ _ (by omega), h3n]
        · have := k.stage
          rw [this]
          show ((m3.set c _).ctx c0).stage = (m.ctx c0).stage
          rw [set_ctx_ne _ _ (by omega), h3s]
        · have := k.out
          simp only [decide_eq_true_eq]
          exact outOk_congr rfl this
      | ret =>
        simp only [Option.some.injEq, Prod.mk.injEq] at hs
        obtain ⟨rfl, rfl, rfl⟩ := hs
        obtain ⟨k1, k2⟩ := p1.out
        simp only [h2cur] at k1 k2
        subst k1
        rw [tryLoop_out hctx (by simp) hround (by simp) (by simp)]
        exact ⟨h3cur, rfl, h3dat, h3z, h3n, h3s, h3st, p1.same, ⟨rfl, k2⟩⟩
      | exn e' =>
        simp only [Option.some.injEq, Prod.mk.injEq] at hs
        obtain ⟨rfl, rfl, rfl⟩ := hs
        have k := p1.out
        simp only [OutOk, h2cur] at k
        by_cases h0 : c0 = 0
        · rw [if_pos h0] at k
          obtain ⟨k1, k2⟩ := k
          subst k1
          rw [tryLoop_out hctx (by simp) hround (by simp) (by simp)]
          exact ⟨h3cur, rfl, h3dat, h3z, h3n, h3s, h3st, p1.same, by
            simp only [OutOk]; rw [if_pos h0]; exact ⟨trivial, k2⟩⟩
        · rw [if_neg h0] at k
          obtain ⟨k1, k2⟩ := k
          subst k1
          rw [tryLoop_out hctx (by simp) hround (by simp) (by
            intro v hv
            injection hv with hv
            omega)]
          exact ⟨h3cur, rfl, h3dat, h3z, h3n, h3s, h3st, p1.same, by
            simp only [OutOk]; rw [if_neg h0]; exact ⟨trivial, k2⟩⟩

theorem Post.rebase {m mA : M σ} {r : Out × M σ} {d d' : Dyn} {o : SOut} {s' : σ} (p : Post mA r d o d' s')
    (hcur : mA.cur = m.cur) (htop : mA.top = m.top) (hlt : m.cur < m.top) (hctx : ∀ z, z < m.top → mA.ctx z = m.ctx z) :
    Post m r d o d' s' where
  cur := p.cur.trans hcur
  top := p.top.trans htop
  dat := p.dat
  frame := fun z hz hc => by rw [p.frame z (by omega) (by omega), hctx z hz]
  next := by have := p.next; rw [hcur] at this; rw [this, hctx _ hlt]
  stage := by have := p.stage; rw [hcur] at this; rw [this, hctx _ hlt]
  state := by have := p.state; rw [hcur] at this; exact this
  same := p.same
  out := outOk_congr hcur p.out

/-- A round in which nothing of the chain applies. -/
theorem one_idle {body : Prog σ} {cs : Cls σ} {hasFin : Bool} {fb : Exn → Bool → σ → σ} {f : Prog σ} {c : Nat} {m : M σ}
    (hst : (m.ctx c).stage = 2) (hcls : execCls c cs m = none) : one body cs hasFin fb f c m = (.norm, m) := by
  unfold one chain
  rw [if_neg (by rw [hst]; simp)]
  simp only [hcls]
  unfold finally_
  rw [if_neg (by rw [hst]; simp)]

theorem try_sim {body : Prog σ} {cs : Cls σ} {hasFin : Bool} {fb : Exn → Bool → σ → σ} {f : Prog σ} (hb : Sim body)
    (hcs : SimCls cs) (hf : Sim f) : Sim (.try_ body cs hasFin fb f) := by
  intro m lx x d o d' s' h hs
  simp only [sexec] at hs
  show Post m (tryStmt (one body cs hasFin fb f) m) d o d' s'
  unfold tryStmt
  obtain ⟨c, hc⟩ : ∃ c, c = m.top := ⟨_, rfl⟩
  obtain ⟨m0, hm0⟩ : ∃ m0 : M σ, m0 = { m with ctx := Function.update m.ctx c ⟨tryS, 0, m.cur, none⟩, cur := c, top := c + 1 } :=
    ⟨_, rfl⟩
  simp only [← hc]
  rw [← hm0]
  have hcurlt : m.cur < c := by rw [hc]; exact h.cur
  have hctx0 : m0.ctx c = ⟨tryS, 0, m.cur, none⟩ := by rw [hm0]; exact Function.update_self ..
  have hoth0 : ∀ z, z < c → m0.ctx z = m.ctx z := fun z hz => by
    rw [hm0]; exact Function.update_of_ne (by omega) ..
  obtain ⟨m1, hm1⟩ : ∃ m1, m1 = m0.set c ⟨tryS, 1, m.cur, none⟩ := ⟨_, rfl⟩
  have hctx1 : m1.ctx c = ⟨tryS, 1, m.cur, none⟩ := by rw [hm1, set_ctx]
  have hoth1 : ∀ z, z < c → m1.ctx z = m.ctx z := fun z hz => by rw [hm1, set_ctx_ne _ _ (by omega), hoth0 z hz]
  have hcur1 : m1.cur = c := by rw [hm1, hm0]; rfl
  have htop1 : m1.top = c + 1 := by rw [hm1, hm0]; rfl
  have hdat1 : m1.dat = m.dat := by rw [hm1, hm0]; rfl
  have hstart : m0.set c { (⟨tryS, 0, m.cur, none⟩ : Ctx) with stage := (⟨tryS, 0, m.cur, none⟩ : Ctx).stage + 1 } = m1 := by
    rw [hm1]
  have hone1 : one body cs hasFin fb f c m1 = exec c body m1 := by
    unfold one chain
    rw [if_pos (by rw [hctx1]; simp)]
  have pre1 : Pre m1 c none .body := by
    constructor
    · rw [hcur1, htop1]; omega
    · rw [htop1]; omega
    · rw [hctx1]
    · rw [hcur1, hctx1]; rfl
    · rw [hcur1, hctx1]; rfl
    · rw [hoth1 0 (by omega)]; exact h.root
  rw [← hdat1] at hs
  -- the last two rounds
  have htail : ∀ (m2 : M σ) (st : BitVec 3) (e : Exn), m2.ctx c = ⟨st, 2, m.cur, e⟩ → m2.cur = c → m2.top = c + 1 →
      (∀ z, z < c → m2.ctx z = m.ctx z) →
      (∀ m' : M σ, (m'.ctx c).state = st → (m'.ctx c).exc = e → execCls c cs m' = none) →
      specFinish hasFin fb (fun e d s => sexec f e d s) e (st == catchS) (st &&& throwS ≠ 0) d m2.dat = some (o, d', s') →
      Post m ((tryLoop (one body cs hasFin fb f c) c 2 m2).1,
        { (tryLoop (one body cs hasFin fb f c) c 2 m2).2 with top := c }) d o d' s' := by
    intro m2 st e k1 k2 k3 k4 k5 k6
    have := tail_sim (body := body) hf k1 k2 k3 hcurlt (by rw [k4 _ hcurlt]; exact h.state) (by rw [k4 _ hcurlt]; exact h.exc)
      (by rw [k4 0 (by omega)]; exact h.root) k5 k6
    exact this.rebase rfl hc h.cur (fun z hz => k4 z (by omega))
  cases e1 : sexec body none .body m1.dat with
  | none => rw [e1] at hs; exact absurd hs (by simp [specTry])
  | some r1 =>
    obtain ⟨o1, d1, s1⟩ := r1
    rw [e1] at hs
    have p1 := hb m1 c none .body o1 d1 s1 pre1 e1
    obtain ⟨r, hr⟩ : ∃ r, r = exec c body m1 := ⟨_, rfl⟩
    rw [← hr] at p1
    obtain ⟨out, m2⟩ := r
    have hd1 : d1 = .body := by cases p1.same; rfl
    subst hd1
    have hround : one body cs hasFin fb f c (m0.set c { (⟨tryS, 0, m.cur, none⟩ : Ctx) with
        stage := (⟨tryS, 0, m.cur, none⟩ : Ctx).stage + 1 }) = (out, m2) := by rw [hstart, hone1, hr]
    have h2cur : m2.cur = c := by have := p1.cur; simp only at this; rw [this, hcur1]
    have h2top : m2.top = c + 1 := by have := p1.top; simp only at this; rw [this, htop1]
    have h2z : ∀ z, z < c → m2.ctx z = m.ctx z := fun z hz => by
      have := p1.frame z (by rw [htop1]; omega) (by rw [hcur1]; omega)
      simp only at this
      rw [this, hoth1 z hz]
    have h2n : (m2.ctx c).next = m.cur := by have := p1.next; simp only [hcur1] at this; rw [this, hctx1]
    have h2s : (m2.ctx c).stage = 1 := by have := p1.stage; simp only [hcur1] at this; rw [this, hctx1]
    have h2st : (m2.ctx c).state = tryS := by have := p1.state; simp only [hcur1] at this; exact this
    have h2dat : m2.dat = s1 := p1.dat
    cases o1 with
    | norm =>
      obtain ⟨k1, k2⟩ := p1.out
      simp only [hcur1] at k1 k2
      subst k1
      have h2c : m2.ctx c = ⟨tryS, 1, m.cur, none⟩ := by
        obtain ⟨y, hy⟩ : ∃ y, y = m2.ctx c := ⟨_, rfl⟩
        rw [← hy] at h2n h2s h2st k2 ⊢
        obtain ⟨y1, y2, y3, y4⟩ := y
        simp only at h2n h2s h2st k2
        rw [h2n, h2s, h2st, k2]
        rfl
      rw [tryLoop_norm hctx0 (by simp) hround]
      obtain ⟨m3, hm3⟩ : ∃ m3, m3 = m2.set c ⟨tryS, 2, m.cur, none⟩ := ⟨_, rfl⟩
      have h3c : m3.ctx c = ⟨tryS, 2, m.cur, none⟩ := by rw [hm3, set_ctx]
      rw [tryLoop_norm (m' := m3) h2c (by simp) (by
        show one body cs hasFin fb f c (m2.set c ⟨tryS, 2, m.cur, none⟩) = _
        rw [← hm3]
        exact one_idle (by rw [h3c]) (execCls_off (by rw [h3c]; exact (by decide : tryS ≠ throwS))))]
      refine htail m3 tryS none h3c (by rw [hm3]; exact h2cur) (by rw [hm3]; exact h2top)
        (fun z hz => by rw [hm3, set_ctx_ne _ _ (by omega), h2z z hz]) (fun m' k _ => execCls_off (by rw [k]; decide)) ?_
      rw [show m3.dat = s1 by rw [hm3]; exact h2dat]
      exact hs
    | ret => exact absurd hs (by simp [specTry])
    | exn e =>
      have k := p1.out
      simp only [OutOk, hcur1] at k
      rw [if_neg (by omega)] at k
      obtain ⟨k1, k2⟩ := k
      subst k1
      rw [tryLoop_jmp hctx0 (by simp) hround]
      obtain ⟨m3, hm3⟩ : ∃ m3, m3 = m2.set c { m2.ctx c with state := Dyn.body.state ||| throwS } := ⟨_, rfl⟩
      rw [← hm3]
      have h3c : m3.ctx c = ⟨throwS, 1, m.cur, e⟩ := by
        rw [hm3, set_ctx]
        obtain ⟨y, hy⟩ : ∃ y, y = m2.ctx c := ⟨_, rfl⟩
        rw [← hy] at h2n h2s h2st k2 ⊢
        obtain ⟨y1, y2, y3, y4⟩ := y
        simp only at h2n h2s h2st k2
        rw [h2n, h2s, k2]
        rfl
      obtain ⟨m4, hm4⟩ : ∃ m4, m4 = m3.set c ⟨throwS, 2, m.cur, e⟩ := ⟨_, rfl⟩
      have h4c : m4.ctx c = ⟨throwS, 2, m.cur, e⟩ := by rw [hm4, set_ctx]
      have h4cur : m4.cur = c := by rw [hm4, hm3]; exact h2cur
      have h4top : m4.top = c + 1 := by rw [hm4, hm3]; exact h2top
      have h4z : ∀ z, z < c → m4.ctx z = m.ctx z := fun z hz => by
        rw [hm4, set_ctx_ne _ _ (by omega), hm3, set_ctx_ne _ _ (by omega), h2z z hz]
      have h4dat : m4.dat = s1 := by rw [hm4, hm3]; exact h2dat
      obtain ⟨q1, q2⟩ := hcs c m4 e (by rw [h4c]) (by rw [h4c]) h4cur (by omega) (by rw [h4top]; omega)
        (by rw [h4z 0 (by omega)]; exact h.root)
      simp only [specTry] at hs
      rw [← h4dat] at hs
      cases e2 : sexecCls cs e m4.dat with
      | none =>
        rw [e2] at hs
        rw [tryLoop_norm (m' := m4) h3c (by simp) (by
          show one body cs hasFin fb f c (m3.set c ⟨throwS, 2, m.cur, e⟩) = _
          rw [← hm4]
          exact one_idle (by rw [h4c]) (q1 e2))]
        exact htail m4 throwS e h4c h4cur h4top h4z (fun m' _ k' => execCls_nomatch (s := m4.dat) (by rw [k', e2])) hs
      | some r2 =>
        rw [e2] at hs
        cases r2 with
        | none => exact absurd hs (by simp)
        | some r3 =>
          obtain ⟨o3, d3, s3⟩ := r3
          obtain ⟨r4, dd, q3, q4, q5⟩ := q2 o3 d3 s3 e2
          obtain ⟨out4, m5⟩ := r4
          have hround2 : one body cs hasFin fb f c (m3.set c ⟨throwS, 2, m.cur, e⟩) = (out4, m5) := by
            rw [← hm4]
            unfold one chain
            rw [if_neg (by rw [h4c]; simp)]
            simp only [q3]
          have h5cur : m5.cur = c := by have := q4.cur; simp only at this; rw [this, h4cur]
          have h5top : m5.top = c + 1 := by have := q4.top; simp only at this; rw [this, h4top]
          have h5z : ∀ z, z < c → m5.ctx z = m.ctx z := fun z hz => by
            have := q4.frame z (by rw [h4top]; omega) (by rw [h4cur]; omega)
            simp only at this
            rw [this, h4z z hz]
          have h5n : (m5.ctx c).next = m.cur := by have := q4.next; simp only [h4cur] at this; rw [this, h4c]
          have h5s : (m5.ctx c).stage = 2 := by have := q4.stage; simp only [h4cur] at this; rw [this, h4c]
          have h5st : (m5.ctx c).state = d3.state := by have := q4.state; simp only [h4cur] at this; exact this
          have h5dat : m5.dat = s3 := q4.dat
          have h3exc : d3.exc = e := by rw [q4.same.exc, q5]
          cases d3 with
          | body => cases o3 <;> exact absurd hs (by simp)
          | catch_ y b =>
            simp only [Dyn.exc] at h3exc
            subst h3exc
            cases b with
            | false => cases o3 <;> exact absurd hs (by simp)
            | true =>
              cases o3 with
              | norm =>
                obtain ⟨k1, k3⟩ := q4.out
                simp only [h4cur] at k1 k3
                subst k1
                have h5c : m5.ctx c = ⟨catchS, 2, m.cur, y⟩ := by
                  obtain ⟨z, hz⟩ : ∃ z, z = m5.ctx c := ⟨_, rfl⟩
                  rw [← hz] at h5n h5s h5st k3 ⊢
                  obtain ⟨y1, y2, y3, y4⟩ := z
                  simp only at h5n h5s h5st k3
                  rw [h5n, h5s, h5st, k3]
                  rfl
                rw [tryLoop_norm h3c (by simp) hround2]
                refine htail m5 catchS y h5c h5cur h5top h5z (fun m' k _ => execCls_off (by rw [k]; decide)) ?_
                rw [h5dat]
                exact hs
              | ret => exact absurd hs (by simp)
              | exn e' =>
                have k := q4.out
                simp only [OutOk, h4cur] at k
                rw [if_neg (by omega)] at k
                obtain ⟨k1, k3⟩ := k
                subst k1
                rw [tryLoop_jmp h3c (by simp) hround2]
                obtain ⟨m6, hm6⟩ : ∃ m6, m6 = m5.set c { m5.ctx c with state := (Dyn.catch_ y true).state ||| throwS } := ⟨_, rfl⟩
                rw [← hm6]
                have h6c : m6.ctx c = ⟨5, 2, m.cur, e'⟩ := by
                  rw [hm6, set_ctx]
                  obtain ⟨z, hz⟩ : ∃ z, z = m5.ctx c := ⟨_, rfl⟩
                  rw [← hz] at h5n h5s h5st k3 ⊢
                  obtain ⟨y1, y2, y3, y4⟩ := z
                  simp only at h5n h5s h5st k3
                  rw [h5n, h5s, k3, show (Dyn.catch_ y true).state ||| throwS = 5 from (by decide : catchS ||| throwS = 5)]
                refine htail m6 5 e' h6c (by rw [hm6]; exact h5cur) (by rw [hm6]; exact h5top)
                  (fun z hz => by rw [hm6, set_ctx_ne _ _ (by omega), h5z z hz])
                  (fun m' k _ => execCls_off (by rw [k]; decide)) ?_
                rw [show m6.dat = s3 by rw [hm6]; exact h5dat]
                exact hs

mutual
theorem sim : ∀ p : Prog σ, Sim p
  | .act f => by
    intro m lx x d o d' s' h hs
    simp only [sexec, Option.some.injEq, Prod.mk.injEq] at hs
    obtain ⟨rfl, rfl, rfl⟩ := hs
    simp only [exec]
    exact Post.refl h f
  | .seq p q => seq_sim (sim p) (sim q)
  | .ite c p q => by
    intro m lx x d o d' s' h hs
    simp only [sexec] at hs
    simp only [exec]
    by_cases hc : c m.dat
    · rw [if_pos hc] at hs ⊢
      exact sim p m lx x d o d' s' h hs
    · rw [if_neg hc] at hs ⊢
      exact sim q m lx x d o d' s' h hs
  | .rep n p => by
    intro m lx x d o d' s' h hs
    simp only [sexec] at hs
    simp only [exec]
    exact iter_sim (sim p) _ m d o d' s' h hs
  | .throw e => by
    intro m lx x d o d' s' h hs
    simp only [sexec, Option.some.injEq, Prod.mk.injEq] at hs
    obtain ⟨rfl, rfl, rfl⟩ := hs
    simp only [exec]
    exact throw_post h _
  | .rethrow => by
    intro m lx x d o d' s' h hs
    simp only [sexec, Option.some.injEq, Prod.mk.injEq] at hs
    obtain ⟨rfl, rfl, rfl⟩ := hs
    simp only [exec]
    rw [h.lxe]
    exact throw_post h _
  | .caught e p q => caught_sim (sim p) (sim q)
  | .ret => by
    intro m lx x d o d' s' h hs
    simp only [sexec, Option.some.injEq, Prod.mk.injEq] at hs
    obtain ⟨rfl, rfl, rfl⟩ := hs
    simp only [exec]
    have := Post.refl h id
    exact ⟨rfl, rfl, rfl, this.frame, rfl, rfl, this.state, this.same, ⟨rfl, this.out.2⟩⟩
  | .call p => call_sim (sim p)
  | .try_ body cs _ _ f => try_sim (sim body) (simCls cs) (sim f)
theorem simCls : ∀ cs : Cls σ, SimCls cs
  | .nil => by
    intro c m e _ _ _ _ _ _
    simp only [sexecCls, execCls]
    exact ⟨fun _ => trivial, fun _ _ _ h => absurd h (by simp)⟩
  | .cons _ _ h rest => cls_sim (sim h) (simCls rest)
end

end Verif.Except
