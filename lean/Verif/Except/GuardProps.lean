import Verif.Except.Guard

/-!
# Properties of guard scopes and deferred functions (C47)
-/

namespace Verif.Except.Guard

variable {σ : Type}

theorem runD_eq (e : Exn) (l : List (D σ)) (x : σ) : specRun e l x = runD e l x := by
  have hh : ∀ d : D σ, accepts e d = hit e d := by
    intro d
    unfold hit accepts
    cases d.catches <;> cases e <;> simp [isExc]
  unfold specRun
  induction l generalizing x with
  | nil => rfl
  | cons d l ih =>
    simp only [runD, List.any_cons, List.foldl_cons, ← ih, hh]

structure Inv (s : S σ) (fr : Fr σ) (bs : List Nat) : Prop where
  arena : s.arena = bs.head?
  blk : List.Forall₂ (fun b f => s.blk b = ⟨some f.defers, f.prot, none, false⟩) bs fr.stack
  nodup : bs.Nodup
  lt : ∀ b ∈ bs, b < s.n
  root : s.root = fr.root

/-- The innermost scope while an exception is on its way to the end of it. -/
def ExnOk (s' : S σ) (e : Exn) (rec : Bool) (d' : σ) : List Nat → List (Frame σ) → Prop
  | b :: bs, f :: st =>
    (if f.prot then rec = (runD e f.defers d').1 ∧ s'.dat = (runD e f.defers d').2 ∧
        ∃ p, s'.blk b = ⟨none, p, e, false⟩
      else rec = false ∧ s'.dat = d' ∧ s'.blk b = ⟨some f.defers, false, e, false⟩) ∧
    List.Forall₂ (fun b f => s'.blk b = ⟨some f.defers, f.prot, none, false⟩) bs st
  | [], [] => rec = false ∧ s'.dat = d'
  | _, _ => False

def Post (r : GOut × S σ) (fr' : Fr σ) (d' : σ) (bs : List Nat) : GS → Prop
  | .norm => r.1 = .norm ∧ Inv r.2 fr' bs ∧ r.2.dat = d'
  | .exn e => ∃ rec, r.1 = .exn e rec ∧ ExnOk r.2 e rec d' bs fr'.stack ∧ r.2.arena = bs.head? ∧ bs.Nodup ∧
      (∀ b ∈ bs, b < r.2.n) ∧ r.2.root = fr'.root

def Sim (p : G σ) : Prop :=
  ∀ s fr bs o fr' d', Inv s fr bs → sg p fr s.dat = some (o, fr', d') → Post (gexec false p s) fr' d' bs o

theorem forall₂_set {s : S σ} {b : Nat} {x : Blk σ} {bs : List Nat} {st : List (Frame σ)} (hb : b ∉ bs)
    (h : List.Forall₂ (fun b f => s.blk b = ⟨some f.defers, f.prot, none, false⟩) bs st) :
    List.Forall₂ (fun c f => (Function.update s.blk b x) c = (⟨some f.defers, f.prot, none, false⟩ : Blk σ)) bs st := by
  induction h with
  | nil => exact .nil
  | cons h1 _ ih =>
    refine .cons ?_ (ih (fun k => hb (List.mem_cons_of_mem _ k)))
    rw [Function.update_of_ne]
    · exact h1
    · rintro rfl
      exact hb (List.mem_cons_self ..)

theorem hook_post {s : S σ} {fr : Fr σ} {bs : List Nat} (h : Inv s fr bs) (e : Exn) :
    Post (hook s e) fr s.dat bs (.exn e) := by
  obtain ⟨st, root⟩ := fr
  have hb := h.blk
  cases hb with
  | nil =>
    have ha : s.arena = none := h.arena
    unfold hook
    rw [ha]
    exact ⟨false, rfl, ⟨rfl, rfl⟩, ha, h.nodup, h.lt, h.root⟩
  | @cons b f bs st h1 h2 =>
    have ha : s.arena = some b := h.arena
    have hnd : b ∉ bs := (List.nodup_cons.1 h.nodup).1
    unfold hook
    rw [ha]
    simp only [S.set, Function.update_self]
    by_cases hp : f.prot
    · rw [if_pos (by rw [h1]; exact hp)]
      refine ⟨_, rfl, ?_⟩
      simp only [unwind, Function.update_self, h1, S.set, Function.update_idem]
      refine ⟨⟨?_, forall₂_set hnd h2⟩, ha, h.nodup, h.lt, h.root⟩
      rw [if_pos hp]
      exact ⟨rfl, rfl, _, Function.update_self ..⟩
    · rw [if_neg (by rw [h1]; exact hp)]
      refine ⟨false, rfl, ⟨?_, forall₂_set hnd h2⟩, ha, h.nodup, h.lt, h.root⟩
      rw [if_neg hp]
      refine ⟨rfl, rfl, (Function.update_self ..).trans ?_⟩
      rw [h1]
      simp at hp
      simp [hp]

theorem addDefer_post {s : S σ} {fr : Fr σ} {bs : List Nat} (h : Inv s fr bs) (d : D σ) (prot : Bool) :
    Post (addDefer d prot s) (specDefer d prot fr) s.dat bs .norm := by
  obtain ⟨st, root⟩ := fr
  have hb := h.blk
  cases hb with
  | nil =>
    have ha : s.arena = none := h.arena
    unfold addDefer
    rw [ha]
    refine ⟨rfl, ⟨rfl, .nil, h.nodup, h.lt, ?_⟩, rfl⟩
    show d :: s.root = d :: root
    rw [h.root]
  | @cons b f bs st h1 h2 =>
    have ha : s.arena = some b := h.arena
    have hnd : b ∉ bs := (List.nodup_cons.1 h.nodup).1
    unfold addDefer
    rw [ha]
    simp only [h1, S.set]
    refine ⟨rfl, ⟨ha, .cons ?_ (forall₂_set hnd h2), h.nodup, h.lt, h.root⟩, rfl⟩
    exact Function.update_self ..

theorem seq_sim {p q : G σ} (hp : Sim p) (hq : Sim q) : Sim (.seq p q) := by
  intro s fr bs o fr' d' h hs
  simp only [sg] at hs
  simp only [gexec]
  cases e1 : sg p fr s.dat with
  | none => rw [e1] at hs; exact absurd hs (by simp)
  | some r1 =>
    obtain ⟨o1, fr1, d1⟩ := r1
    rw [e1] at hs
    have p1 := hp s fr bs o1 fr1 d1 h e1
    obtain ⟨r, hr⟩ : ∃ r, r = gexec false p s := ⟨_, rfl⟩
    rw [← hr] at p1 ⊢
    obtain ⟨out, s1⟩ := r
    cases o1 with
    | norm =>
      obtain ⟨k1, k2, k3⟩ := p1
      simp only at k1 k2 k3
      subst k1
      rw [← k3] at hs
      exact hq s1 fr1 bs o fr' d' k2 hs
    | exn e =>
      simp only [Option.some.injEq, Prod.mk.injEq] at hs
      obtain ⟨rfl, rfl, rfl⟩ := hs
      obtain ⟨rec, k1, k2⟩ := p1
      simp only at k1
      subst k1
      exact ⟨rec, rfl, k2⟩

theorem iter_sim {p : G σ} (hp : Sim p) : ∀ n s fr bs o fr' d', Inv s fr bs →
    sgiter (fun fr s => sg p fr s) n fr s.dat = some (o, fr', d') → Post (giter (fun s => gexec false p s) n s) fr' d' bs o
  | 0, s, fr, bs, o, fr', d', h, hs => by
    simp only [sgiter, Option.some.injEq, Prod.mk.injEq] at hs
    obtain ⟨rfl, rfl, rfl⟩ := hs
    exact ⟨rfl, h, rfl⟩
  | n + 1, s, fr, bs, o, fr', d', h, hs => by
    simp only [sgiter] at hs
    simp only [giter]
    cases e1 : sg p fr s.dat with
    | none => rw [e1] at hs; exact absurd hs (by simp)
    | some r1 =>
      obtain ⟨o1, fr1, d1⟩ := r1
      rw [e1] at hs
      have p1 := hp s fr bs o1 fr1 d1 h e1
      obtain ⟨r, hr⟩ : ∃ r, r = gexec false p s := ⟨_, rfl⟩
      rw [← hr] at p1 ⊢
      obtain ⟨out, s1⟩ := r
      cases o1 with
      | norm =>
        obtain ⟨k1, k2, k3⟩ := p1
        simp only at k1 k2 k3
        subst k1
        rw [← k3] at hs
        exact iter_sim hp n s1 fr1 bs o fr' d' k2 hs
      | exn e =>
        simp only [Option.some.injEq, Prod.mk.injEq] at hs
        obtain ⟨rfl, rfl, rfl⟩ := hs
        obtain ⟨rec, k1, k2⟩ := p1
        simp only at k1
        subst k1
        exact ⟨rec, rfl, k2⟩

theorem guard_sim {p : G σ} (hp : Sim p) : Sim (.guard p) := by
  intro s fr bs o fr' d' h hs
  simp only [sg] at hs
  simp only [gexec]
  obtain ⟨st0, root0⟩ := fr
  have hnew : s.n ∉ bs := fun k => absurd (h.lt _ k) (by omega)
  have h1 : Inv (guardInit s) ⟨⟨[], false⟩ :: st0, root0⟩ (s.n :: bs) := by
    refine ⟨rfl, .cons ?_ ?_, List.nodup_cons.2 ⟨hnew, h.nodup⟩, ?_, h.root⟩
    · exact Function.update_self ..
    · exact forall₂_set hnew h.blk
    · intro b hb
      show b < s.n + 1
      rcases List.mem_cons.1 hb with rfl | hb
      · omega
      · have := h.lt b hb; omega
  have hdat : (guardInit s).dat = s.dat := rfl
  rw [← hdat] at hs
  cases e1 : sg p ⟨⟨[], false⟩ :: st0, root0⟩ (guardInit s).dat with
  | none => rw [e1] at hs; exact absurd hs (by simp [specEnd])
  | some r1 =>
    obtain ⟨o1, fr1, d1⟩ := r1
    rw [e1] at hs
    have p1 := hp (guardInit s) _ (s.n :: bs) o1 fr1 d1 h1 e1
    obtain ⟨r, hr⟩ : ∃ r, r = gexec false p (guardInit s) := ⟨_, rfl⟩
    rw [← hr] at p1 ⊢
    obtain ⟨out, s1⟩ := r
    obtain ⟨st1, root1⟩ := fr1
    cases o1 with
    | norm =>
      obtain ⟨k1, k2, k3⟩ := p1
      simp only at k1 k2 k3
      subst k1
      have hb := k2.blk
      cases st1 with
      | nil => exact absurd hb (by simp)
      | cons f st1 =>
        cases hb with
        | cons hb1 hb2 =>
          simp only [specEnd, runD_eq, Option.some.injEq, Prod.mk.injEq] at hs
          obtain ⟨rfl, rfl, rfl⟩ := hs
          simp only [guardEnd, reset, unwind, hb1, S.set, Function.update_self, Function.update_idem]
          refine ⟨rfl, ⟨h.arena, forall₂_set hnew hb2, h.nodup, fun b hb => k2.lt b (List.mem_cons_of_mem _ hb), k2.root⟩, ?_⟩
          rw [k3]
    | exn e =>
      obtain ⟨rec, k1, k2, k3, k4, k5, k6⟩ := p1
      simp only at k1 k2 k3 k5 k6
      subst k1
      cases st1 with
      | nil => exact absurd k2 (by simp [ExnOk])
      | cons f st1 =>
        obtain ⟨q1, q2⟩ := k2
        simp only [specEnd, runD_eq] at hs
        by_cases hp : f.prot
        · rw [if_pos hp] at q1
          obtain ⟨q3, q4, pr, q5⟩ := q1
          rw [if_pos hp] at hs
          split at hs
          · exact absurd hs (by simp)
          · rename_i hn
            simp only [Option.some.injEq, Prod.mk.injEq] at hs
            obtain ⟨rfl, rfl, rfl⟩ := hs
            have hrec : rec = false := by rw [q3]; simpa using hn
            subst hrec
            simp only [guardEnd, reset, unwind, q5, S.set, Bool.false_eq_true, if_false]
            have := hook_post (s := { s1 with blk := Function.update s1.blk s.n ⟨none, pr, e, true⟩, arena := s.arena })
              (fr := ⟨st1, root1⟩) (bs := bs) ⟨h.arena, forall₂_set hnew q2, h.nodup,
                fun b hb => k5 b (List.mem_cons_of_mem _ hb), k6⟩ e
            rw [← q4]
            exact this
        · rw [if_neg hp] at q1
          obtain ⟨q3, q4, q5⟩ := q1
          subst q3
          rw [if_neg hp] at hs
          simp only [guardEnd, reset, unwind, q5, S.set, Function.update_self, Function.update_idem, q4]
          by_cases hr1 : (runD e f.defers d1).1
          · rw [if_pos hr1] at hs ⊢
            simp only [Option.some.injEq, Prod.mk.injEq] at hs
            obtain ⟨rfl, rfl, rfl⟩ := hs
            exact ⟨rfl, ⟨h.arena, forall₂_set hnew q2, h.nodup, fun b hb => k5 b (List.mem_cons_of_mem _ hb), k6⟩, rfl⟩
          · rw [if_neg hr1] at hs ⊢
            simp only [Option.some.injEq, Prod.mk.injEq] at hs
            obtain ⟨rfl, rfl, rfl⟩ := hs
            simp only [Bool.false_eq_true, if_false]
            exact hook_post (s := { s1 with
                blk := Function.update s1.blk s.n ⟨none, false, e, true⟩, arena := s.arena, dat := (runD e f.defers d1).2 })
              (fr := ⟨st1, root1⟩) (bs := bs) ⟨h.arena, forall₂_set hnew q2, h.nodup,
                fun b hb => k5 b (List.mem_cons_of_mem _ hb), k6⟩ e

theorem try_sim {p q : G σ} (hp : Sim p) (hq : Sim q) : Sim (.tryAny p q) := by
  intro s fr bs o fr' d' h hs
  simp only [sg] at hs
  simp only [gexec]
  cases e1 : sg p fr s.dat with
  | none => rw [e1] at hs; exact absurd hs (by simp)
  | some r1 =>
    obtain ⟨o1, fr1, d1⟩ := r1
    rw [e1] at hs
    have p1 := hp s fr bs o1 fr1 d1 h e1
    obtain ⟨r, hr⟩ : ∃ r, r = gexec false p s := ⟨_, rfl⟩
    rw [← hr] at p1 ⊢
    obtain ⟨out, s1⟩ := r
    cases o1 with
    | norm =>
      simp only [Option.some.injEq, Prod.mk.injEq] at hs
      obtain ⟨rfl, rfl, rfl⟩ := hs
      have k1 := p1.1
      simp only at k1
      subst k1
      exact p1
    | exn e =>
      obtain ⟨st1, root1⟩ := fr1
      simp only at hs
      split at hs
      · rename_i he
        simp only [List.isEmpty_iff] at he
        subst he
        obtain ⟨rec, k1, k2, k3, k4, k5, k6⟩ := p1
        simp only at k1 k2 k3 k5 k6
        cases bs with
        | cons b bs => exact absurd k2 (by simp [ExnOk])
        | nil =>
          obtain ⟨q1, q2⟩ := k2
          subst k1
          subst q1
          rw [← q2] at hs
          exact hq s1 ⟨[], root1⟩ [] o fr' d' ⟨k3, .nil, List.nodup_nil, by simp, k6⟩ hs
      · exact absurd hs (by simp)

theorem sim : ∀ p : G σ, Sim p
  | .act f => by
    intro s fr bs o fr' d' h hs
    simp only [sg, Option.some.injEq, Prod.mk.injEq] at hs
    obtain ⟨rfl, rfl, rfl⟩ := hs
    exact ⟨rfl, ⟨h.arena, h.blk, h.nodup, h.lt, h.root⟩, rfl⟩
  | .seq p q => seq_sim (sim p) (sim q)
  | .ite c p q => by
    intro s fr bs o fr' d' h hs
    simp only [sg] at hs
    simp only [gexec]
    by_cases hc : c s.dat
    · rw [if_pos hc] at hs ⊢
      exact sim p s fr bs o fr' d' h hs
    · rw [if_neg hc] at hs ⊢
      exact sim q s fr bs o fr' d' h hs
  | .rep n p => by
    intro s fr bs o fr' d' h hs
    simp only [sg] at hs
    exact iter_sim (sim p) _ s fr bs o fr' d' h hs
  | .throw e => by
    intro s fr bs o fr' d' h hs
    simp only [sg, Option.some.injEq, Prod.mk.injEq] at hs
    obtain ⟨rfl, rfl, rfl⟩ := hs
    exact hook_post h _
  | .defer d => by
    intro s fr bs o fr' d' h hs
    simp only [sg, Option.some.injEq, Prod.mk.injEq] at hs
    obtain ⟨rfl, rfl, rfl⟩ := hs
    exact addDefer_post h d false
  | .fence d => by
    intro s fr bs o fr' d' h hs
    simp only [sg, Option.some.injEq, Prod.mk.injEq] at hs
    obtain ⟨rfl, rfl, rfl⟩ := hs
    exact addDefer_post h d true
  | .guard p => guard_sim (sim p)
  | .tryAny p q => try_sim (sim p) (sim q)

/-- Claim C47: for every program within the rules, if the freed block no longer looks like a guard block: at the end of every
scope, normal or by panic, its deferred functions run once each, newest first, and those of outer scopes do not run; a panic
goes on outwards until a deferred function accepts it. -/
theorem deferred_lifo_once_partial (p : G σ) (d : σ) (o : GS) (s' : σ) (h : specThread p d = some (o, s')) :
    ∃ out, thread false p d = (out, s') ∧ match o with | .norm => out = .norm | .exn e => ∃ r, out = .exn e r := by
  unfold specThread at h
  simp only [runD_eq] at h
  cases e1 : sg p ⟨[], []⟩ d with
  | none => rw [e1] at h; exact absurd h (by simp)
  | some r1 =>
    obtain ⟨o1, fr1, d1⟩ := r1
    rw [e1] at h
    simp only at h
    have p1 := sim p (S.init d) ⟨[], []⟩ [] o1 fr1 d1 ⟨rfl, .nil, List.nodup_nil, by simp, rfl⟩ e1
    unfold thread
    obtain ⟨r, hr⟩ : ∃ r, r = gexec false p (S.init d) := ⟨_, rfl⟩
    rw [← hr] at p1 ⊢
    obtain ⟨out, s1⟩ := r
    split at h
    · exact absurd h (by simp)
    · rename_i hroot
      simp only [Option.some.injEq, Prod.mk.injEq] at h
      obtain ⟨rfl, rfl⟩ := h
      cases o1 with
      | norm =>
        obtain ⟨k1, k2, k3⟩ := p1
        simp only at k1 k2 k3
        subst k1
        simp only
        rw [if_neg (by rw [k2.root]; exact hroot), k2.root, k3]
        exact ⟨_, rfl, rfl⟩
      | exn e =>
        obtain ⟨rec, k1, k2, k3, k4, k5, k6⟩ := p1
        simp only at k1 k2 k3 k5 k6
        subst k1
        simp only
        have hst : s1.dat = d1 := by
          cases hst : fr1.stack with
          | nil => rw [hst] at k2; exact k2.2
          | cons f st => rw [hst] at k2; exact absurd k2 (by simp [ExnOk])
        rw [if_neg (by rw [k6]; exact hroot), k6, hst]
        exact ⟨_, rfl, rec, rfl⟩

/-- What the unwinding of a scope does to a log: the deferred functions appear newest first, once each. -/
theorem runD_log (e : Exn) (l : List String) (x : List String) :
    (runD e (l.map fun n => (⟨none, fun _ s => s ++ [n]⟩ : D (List String))) x).2 = x ++ l := by
  induction l generalizing x with
  | nil => simp [runD]
  | cons a l ih => simp only [List.map_cons, runD]; rw [ih]; simp

/-- A case that meets the hypotheses: nested guards with a panic that the outer one accepts. -/
def demo : G (List String) :=
  .seq (.defer ⟨none, fun _ s => s ++ ["thread"]⟩) <|
  .guard <| .seq (.defer ⟨some 4, fun b s => s ++ [if b then "outer accepts" else "outer"]⟩) <|
    .guard <| .seq (.defer ⟨none, fun _ s => s ++ ["first"]⟩) <| .seq (.fence ⟨none, fun _ s => s ++ ["second"]⟩) <|
      .throw fun _ => ⟨4, none⟩

example : (specThread demo []).map (·.2) = some ["second", "first", "outer accepts", "thread"] := by decide
example : (thread false demo []).2 = ["second", "first", "outer accepts", "thread"] := by decide

/-- Against C47: whenever nobody accepts a panic in a guard section, the freed block is read again; if it still looks like
a guard block the behaviour is undefined (its deferred functions and `free` run again). -/
theorem unaccepted_panic_uses_freed_block (e : Exc) (s : S σ) : (gexec true (.guard (.throw fun _ => e)) s).1 = .ub := by
  simp [gexec, guardEnd, guardInit, hook, S.set, reset, unwind, runD]

/-- Against C47: accepting a panic in a scope that holds a `fence` neither stops it nor closes the scope, for all
exceptions and functions. -/
theorem accept_with_fence_goes_on (n : Nat) (f g : Bool → σ → σ) (s : S σ) :
    let r := gexec false (.guard (.seq (.fence ⟨none, f⟩) (.seq (.defer ⟨some n, g⟩) (.throw fun _ => ⟨n, none⟩)))) s
    r.1 = .exn (some ⟨n, none⟩) false ∧ r.2.arena = some s.n ∧ r.2.dat = f false (g true s.dat) := by
  simp [gexec, guardEnd, guardInit, hook, S.set, unwind, runD, addDefer, hit, isExc]

/-- Against C47: a `try`/`catch_any` inside of a guard section that holds a `fence` runs the deferred functions of the
section when its body throws, although the section goes on; the next `defer` in it crashes. -/
theorem try_in_fenced_guard_unwinds_early (e : Exc) (f : Bool → σ → σ) (q : σ → σ) (d : D σ) (s : S σ) :
    let r := gexec false (.guard (.seq (.fence ⟨none, f⟩) (.seq (.tryAny (.throw fun _ => e) (.act q)) (.defer d)))) s
    r.1 = .ub ∧ r.2.dat = q (f false s.dat) := by
  simp [gexec, guardEnd, guardInit, hook, S.set, unwind, runD, addDefer, hit]

/-- Against C47: after an exception that was caught inside of a guard section, a deferred function of the section that runs
at its normal end still sees that exception. -/
theorem caught_exception_seen_at_normal_end (n : Nat) (f : Bool → σ → σ) (q : σ → σ) (s : S σ) :
    (gexec false (.guard (.seq (.defer ⟨some n, f⟩) (.tryAny (.throw fun _ => ⟨n, none⟩) (.act q)))) s).2.dat =
      f true (q s.dat) := by
  simp [gexec, guardEnd, guardInit, hook, S.set, unwind, runD, addDefer, hit, isExc, reset]

end Verif.Except.Guard
