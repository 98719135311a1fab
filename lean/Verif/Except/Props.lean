import Verif.Except.Lemmas

/-!
# Properties of exceptions (C44, C45, C46)
-/

namespace Verif.Except

variable {σ : Type}

theorem init_pre (d : σ) : Pre (M.init d) 0 none .body :=
  ⟨by simp [M.init], by simp [M.init], rfl, rfl, rfl, rfl⟩

/-- How a thread ends, for each way its program ends in the specification: an exception that nobody catches terminates it. -/
def SOut.atRoot : SOut → Out
  | .norm => .norm
  | .ret => .ret
  | .exn _ => .dead

/-- Claim C44: every program within the rules does to its data, and ends, exactly as in the usual meaning of exceptions. -/
theorem exceptions_follow_spec_partial (p : Prog σ) (d : σ) (o : SOut) (d' : Dyn) (s' : σ)
    (h : sexec p none .body d = some (o, d', s')) :
    (exec 0 p (M.init d)).1 = o.atRoot ∧ (exec 0 p (M.init d)).2.dat = s' := by
  have k := sim p (M.init d) 0 none .body o d' s' (init_pre d) h
  refine ⟨?_, k.dat⟩
  have := k.out
  cases o with
  | norm => exact this.1
  | ret => exact this.1
  | exn e =>
    simp only [OutOk] at this
    rw [if_pos (show (M.init d).cur = 0 from rfl)] at this
    exact this.1

/-- Nested `try` statements whose clauses are given with them; each has a finally block that does `g`. -/
def nest : List (Cls σ × (σ → σ)) → Prog σ → Prog σ
  | [], p => p
  | (cs, g) :: l, p => .try_ (nest l p) cs true (fun _ _ => id) (.act g)

/-- None of the clauses is for `e`. -/
def Cls.misses (e : Exc) : Cls σ → Prop
  | .nil => True
  | .cons p _ _ rest => matches_ p (some e) = false ∧ rest.misses e

theorem sexecCls_misses {e : Exc} {s : σ} : ∀ {cs : Cls σ}, cs.misses e → sexecCls cs (some e) s = none
  | .nil, _ => by simp only [sexecCls]
  | .cons p b h rest, hm => by
    simp only [sexecCls]
    rw [if_neg (by rw [hm.1]; simp)]
    exact sexecCls_misses hm.2

theorem nest_throw {e : Exc} {x : Exn} {d : Dyn} {s : σ} : ∀ (l : List (Cls σ × (σ → σ))), (∀ y ∈ l, y.1.misses e) →
    ∃ d', sexec (nest l (.throw fun _ => e)) x d s = some (.exn (some e), d', (l.map (·.2)).foldr (fun g s => g s) s)
  | [], _ => by
    simp only [nest, sexec]
    exact ⟨d, rfl⟩
  | (cs, g) :: l, h => by
    obtain ⟨d1, h1⟩ := nest_throw (e := e) (x := none) (d := .body) (s := s) l (fun y hy => h y (by simp [hy]))
    simp only [nest, sexec, h1, specTry]
    rw [sexecCls_misses (h (cs, g) (by simp))]
    simp only [specFinish, if_true, id]
    exact ⟨d, rfl⟩

/-- Claim C44: an exception thrown below any number of `try` statements whose clauses do not match it skips the code after
them (`q`), runs their finally blocks from the inside to the outside, and is handled by the nearest statement with a
matching clause, once; later clauses of that statement are not run. -/
theorem nearest_handler (e : Exc) (l : List (Cls σ × (σ → σ))) (hl : ∀ y ∈ l, y.1.misses e) (pat : Pat)
    (hp : pat = .any ∨ pat = .name e.name) (b : Exn → σ → σ) (h : σ → σ) (q : Prog σ) (rest : Cls σ) (g : σ → σ) (d : σ) :
    let r := exec 0 (.try_ (.seq (nest l (.throw fun _ => e)) q) (.cons pat b (.act h) rest) true (fun _ _ => id) (.act g))
      (M.init d)
    r.1 = .norm ∧ r.2.dat = g (h (b (some e) ((l.map (·.2)).foldr (fun g s => g s) d))) ∧ r.2.cur = 0 := by
  obtain ⟨d1, h1⟩ := nest_throw (e := e) (x := none) (d := .body) (s := d) l hl
  have hm : matches_ pat (some e) = true := by rcases hp with rfl | rfl <;> simp [matches_]
  have hc : decide (pat ≠ .cond) = true := by rcases hp with rfl | rfl <;> simp
  have hspec : sexec (.try_ (.seq (nest l (.throw fun _ => e)) q) (.cons pat b (.act h) rest) true (fun _ _ => id) (.act g))
      none .body d = some (.norm, .body, g (h (b (some e) ((l.map (·.2)).foldr (fun g s => g s) d)))) := by
    simp only [sexec, h1, specTry, sexecCls, hm, if_true, hc, specFinish, id]
    rfl
  have k := sim _ (M.init d) 0 none .body _ _ _ (init_pre d) hspec
  exact ⟨k.out.1, k.dat, k.cur⟩

/-- Claim C44: if no enclosing statement matches, the thread terminates, after the finally blocks. -/
theorem uncaught_terminates (e : Exc) (l : List (Cls σ × (σ → σ))) (hl : ∀ y ∈ l, y.1.misses e) (d : σ) :
    let r := exec 0 (nest l (.throw fun _ => e)) (M.init d)
    r.1 = .dead ∧ r.2.dat = (l.map (·.2)).foldr (fun g s => g s) d := by
  obtain ⟨d1, h1⟩ := nest_throw (e := e) (x := none) (d := .body) (s := d) l hl
  exact exceptions_follow_spec_partial _ d _ _ _ h1

/-! A case that meets the hypotheses: exception 7 through a statement for 3, with a finally block, to a statement for 7. -/
example : exec 0 (.try_ (.seq (nest [(.cons (.name 3) (fun _ => id) (.act (· ++ ["no"])) .nil, (· ++ ["fin"]))]
    (.throw fun _ => ⟨7, none⟩)) (.act (· ++ ["no"]))) (.cons (.name 7) (fun _ => id) (.act (· ++ ["caught"])) .nil) true
    (fun _ _ => id) (.act (· ++ ["end"]))) (M.init ["start"]) |>.2.dat = ["start", "fin", "caught", "end"] := by decide

/-! ## Balanced handlers -/

/-- Claim C46: wherever a program piece within the rules is run and however it ends (normally, by `return`, or by an
exception that goes to the handler active before), the active handler afterwards is the one that was active before, and
the outer handlers are untouched. -/
theorem handlers_balanced_partial (p : Prog σ) (m : M σ) (lx : Nat) (x : Exn) (d : Dyn) (hm : Pre m lx x d) (o : SOut)
    (d' : Dyn) (s' : σ) (h : sexec p x d m.dat = some (o, d', s')) :
    (exec lx p m).2.cur = m.cur ∧ (exec lx p m).2.top = m.top ∧
      (∀ c, c < m.top → c ≠ m.cur → (exec lx p m).2.ctx c = m.ctx c) ∧
      (∀ c v, (exec lx p m).1 = .jmp c v → c = m.cur) ∧ (exec lx p m).1 ≠ .stuck := by
  have k := sim p m lx x d o d' s' hm h
  refine ⟨k.cur, k.top, k.frame, ?_, ?_⟩
  · intro c v e
    have := k.out
    cases o with
    | norm => rw [this.1] at e; exact absurd e (by simp)
    | ret => rw [this.1] at e; exact absurd e (by simp)
    | exn y =>
      simp only [OutOk] at this
      split at this
      · rw [this.1] at e; exact absurd e (by simp)
      · rw [this.1] at e; injection e with e; exact e.symm
  · intro e
    have := k.out
    cases o with
    | norm => rw [this.1] at e; exact absurd e (by simp)
    | ret => rw [this.1] at e; exact absurd e (by simp)
    | exn y =>
      simp only [OutOk] at this
      split at this
      · rw [this.1] at e; exact absurd e (by simp)
      · rw [this.1] at e; exact absurd e (by simp)

example : Pre (M.init "x") 0 none .body := init_pre _

/-- Against C46: leaving the body of a `try` statement by `return` keeps its record active, in every situation. -/
theorem return_in_try_unbalances (m : M σ) (lx : Nat) (cs : Cls σ) (hasFin : Bool) (fb : Exn → Bool → σ → σ) (f : Prog σ) :
    let r := exec lx (.call (.try_ .ret cs hasFin fb f)) m
    r.1 = .norm ∧ r.2.cur = m.top := by
  simp [exec, tryStmt, tryLoop, chain, M.set, tryS]

/-- Against C46 and C44: an exception thrown after that jumps into the frame of the function that has returned. -/
theorem throw_after_return_jumps_to_dead_frame (e : σ → Exc) (cs : Cls σ) (hasFin : Bool) (fb : Exn → Bool → σ → σ) (f : Prog σ)
    (d : σ) : (exec 0 (.seq (.call (.try_ .ret cs hasFin fb f)) (.throw e)) (M.init d)).1 = .jmp 1 throwS := by
  simp [exec, tryStmt, tryLoop, chain, M.set, M.init, throwTo, tryS, throwS]

/-! ## The finally block -/

/-- What is recorded. -/
inductive Ev where
  | enter       -- a try statement is entered
  | fin         -- its finally block begins
  deriving DecidableEq

mutual
/-- The same program, recording the entries into `try` statements and the executions of their finally blocks. -/
def Prog.rec_ : Prog σ → Prog (σ × List Ev)
  | .act f => .act fun s => (f s.1, s.2)
  | .seq p q => .seq p.rec_ q.rec_
  | .ite c p q => .ite (fun s => c s.1) p.rec_ q.rec_
  | .rep n p => .rep (fun s => n s.1) p.rec_
  | .throw e => .throw fun s => e s.1
  | .rethrow => .rethrow
  | .caught e p q => .caught e p.rec_ q.rec_
  | .ret => .ret
  | .call p => .call p.rec_
  | .try_ body cs hasFin fb f =>
    .try_ (.seq (.act fun s => (s.1, s.2 ++ [.enter])) body.rec_) cs.rec_ hasFin (fun e b s => (fb e b s.1, s.2 ++ [.fin])) f.rec_
def Cls.rec_ : Cls σ → Cls (σ × List Ev)
  | .nil => .nil
  | .cons p b h rest => .cons p (fun e s => (b e s.1, s.2)) h.rec_ rest.rec_
end

mutual
/-- Every `try` statement has a finally block. -/
def Prog.allFin : Prog σ → Prop
  | .seq p q => p.allFin ∧ q.allFin
  | .ite _ p q => p.allFin ∧ q.allFin
  | .rep _ p => p.allFin
  | .caught _ p q => p.allFin ∧ q.allFin
  | .call p => p.allFin
  | .try_ body cs hasFin _ f => hasFin = true ∧ body.allFin ∧ cs.allFin ∧ f.allFin
  | _ => True
def Cls.allFin : Cls σ → Prop
  | .nil => True
  | .cons _ _ h rest => h.allFin ∧ rest.allFin
end

/-- Every entry is followed by exactly one finally block of its own, and these are properly nested. -/
inductive Balanced : List Ev → Prop where
  | nil : Balanced []
  | cons {u v : List Ev} (hu : Balanced u) (hv : Balanced v) : Balanced (.enter :: u ++ .fin :: v)

theorem Balanced.append {u v : List Ev} (hu : Balanced u) (hv : Balanced v) : Balanced (u ++ v) := by
  induction hu with
  | nil => exact hv
  | cons h1 _ _ ih =>
    have := Balanced.cons h1 ih
    simpa using this

/-- A run adds a balanced record. -/
def Adds (w : List Ev) (r : SRes (σ × List Ev)) : Prop :=
  ∀ o d s, r = some (o, d, s) → ∃ u, s.2 = w ++ u ∧ Balanced u

theorem adds_refl (o : SOut) (d : Dyn) (s : σ × List Ev) : Adds s.2 (some (o, d, s)) := by
  intro o' d' s' h
  simp only [Option.some.injEq, Prod.mk.injEq] at h
  obtain ⟨_, _, rfl⟩ := h
  exact ⟨[], by simp, .nil⟩

theorem adds_iter {p : Dyn → σ × List Ev → SRes (σ × List Ev)} (hp : ∀ d s, Adds s.2 (p d s)) :
    ∀ n d s, Adds s.2 (specIter p n d s)
  | 0, d, s => adds_refl _ d s
  | n + 1, d, s => by
    intro o d' s' h
    simp only [specIter] at h
    cases e1 : p d s with
    | none => rw [e1] at h; exact absurd h (by simp)
    | some r =>
      obtain ⟨o1, d1, s1⟩ := r
      obtain ⟨u, hu, bu⟩ := hp d s o1 d1 s1 e1
      rw [e1] at h
      cases o1 with
      | norm =>
        simp only at h
        obtain ⟨v, hv, bv⟩ := adds_iter hp n d1 s1 o d' s' h
        exact ⟨u ++ v, by rw [hv, hu, List.append_assoc], bu.append bv⟩
      | _ =>
        simp only [Option.some.injEq, Prod.mk.injEq] at h
        obtain ⟨_, _, rfl⟩ := h
        exact ⟨u, hu, bu⟩

mutual
theorem adds_exec : ∀ (p : Prog σ), p.allFin → ∀ (x : Exn) (d : Dyn) (s : σ × List Ev), Adds s.2 (sexec p.rec_ x d s)
  | .act f, _, x, d, s => by
    intro o d' s' h
    simp only [Prog.rec_, sexec, Option.some.injEq, Prod.mk.injEq] at h
    obtain ⟨_, _, rfl⟩ := h
    exact ⟨[], by simp, .nil⟩
  | .seq p q, hf, x, d, s => by
    intro o d' s' h
    simp only [Prog.rec_, sexec] at h
    cases e1 : sexec p.rec_ x d s with
    | none => rw [e1] at h; exact absurd h (by simp)
    | some r =>
      obtain ⟨o1, d1, s1⟩ := r
      obtain ⟨u, hu, bu⟩ := adds_exec p hf.1 x d s o1 d1 s1 e1
      rw [e1] at h
      cases o1 with
      | norm =>
        simp only at h
        obtain ⟨v, hv, bv⟩ := adds_exec q hf.2 x d1 s1 o d' s' h
        exact ⟨u ++ v, by rw [hv, hu, List.append_assoc], bu.append bv⟩
      | _ =>
        simp only [Option.some.injEq, Prod.mk.injEq] at h
        obtain ⟨_, _, rfl⟩ := h
        exact ⟨u, hu, bu⟩
  | .ite c p q, hf, x, d, s => by
    simp only [Prog.rec_, sexec]
    split
    · exact adds_exec p hf.1 x d s
    · exact adds_exec q hf.2 x d s
  | .rep n p, hf, x, d, s => by
    simp only [Prog.rec_, sexec]
    exact adds_iter (fun d s => adds_exec p hf x d s) _ d s
  | .throw e, _, x, d, s => by simp only [Prog.rec_, sexec]; exact adds_refl _ d s
  | .rethrow, _, x, d, s => by simp only [Prog.rec_, sexec]; exact adds_refl _ d s
  | .caught e p q, hf, x, d, s => by
    simp only [Prog.rec_, sexec]
    split
    · exact adds_exec p hf.1 x _ s
    · exact adds_exec q hf.2 x _ s
  | .ret, _, x, d, s => by simp only [Prog.rec_, sexec]; exact adds_refl _ d s
  | .call p, hf, x, d, s => by
    intro o d' s' h
    simp only [Prog.rec_, sexec] at h
    cases e1 : sexec p.rec_ none d s with
    | none => rw [e1] at h; exact absurd h (by simp)
    | some r =>
      obtain ⟨o1, d1, s1⟩ := r
      obtain ⟨u, hu, bu⟩ := adds_exec p hf none d s o1 d1 s1 e1
      rw [e1] at h
      cases o1 <;>
      · simp only [Option.some.injEq, Prod.mk.injEq] at h
        obtain ⟨_, _, rfl⟩ := h
        exact ⟨u, hu, bu⟩
  | .try_ body cs hasFin fb f, hf, x, d, s => by
    obtain ⟨rfl, hbody, hcs, hff⟩ := hf
    intro o d' s' h
    simp only [Prog.rec_, sexec] at h
    -- the end of the statement
    have hfin : ∀ (e : Exn) (b1 b2 : Bool) (t : σ × List Ev) (u : List Ev), t.2 = s.2 ++ .enter :: u → Balanced u →
        specFinish true (fun e b s => (fb e b s.1, s.2 ++ [Ev.fin])) (fun e d s => sexec f.rec_ e d s) e b1 b2 d t =
          some (o, d', s') → ∃ w, s'.2 = s.2 ++ w ∧ Balanced w := by
      intro e b1 b2 t u ht bu hh
      simp only [specFinish, if_true] at hh
      cases e1 : sexec f.rec_ e d (fb e b1 t.1, t.2 ++ [Ev.fin]) with
      | none => rw [e1] at hh; exact absurd hh (by simp)
      | some r =>
        obtain ⟨o1, d1, s1⟩ := r
        obtain ⟨v, hv, bv⟩ := adds_exec f hff e d _ o1 d1 s1 e1
        rw [e1] at hh
        have : s' = s1 := by
          cases o1 <;>
          · simp only [Option.some.injEq, Prod.mk.injEq] at hh
            exact hh.2.2.symm
        refine ⟨.enter :: u ++ .fin :: v, ?_, .cons bu bv⟩
        rw [this, hv]
        simp [ht]
    cases e1 : sexec body.rec_ none .body (s.1, s.2 ++ [Ev.enter]) with
    | none => simp only [e1] at h; exact absurd h (by simp [specTry])
    | some r =>
      obtain ⟨o1, d1, s1⟩ := r
      obtain ⟨u, hu, bu⟩ := adds_exec body hbody none .body _ o1 d1 s1 e1
      simp only [e1] at h
      have hu' : s1.2 = s.2 ++ .enter :: u := by rw [hu]; simp
      cases o1 with
      | norm => exact hfin none false false s1 u hu' bu h
      | ret => exact absurd h (by simp [specTry])
      | exn e =>
        simp only [specTry] at h
        cases e2 : sexecCls cs.rec_ e s1 with
        | none => rw [e2] at h; exact hfin e false true s1 u hu' bu h
        | some r2 =>
          rw [e2] at h
          cases r2 with
          | none => exact absurd h (by simp)
          | some r3 =>
            obtain ⟨o3, d3, s3⟩ := r3
            obtain ⟨v, hv, bv⟩ := adds_cls cs hcs e s1 _ e2 o3 d3 s3 rfl
            have hv' : s3.2 = s.2 ++ .enter :: (u ++ v) := by rw [hv, hu']; simp
            cases d3 with
            | body => cases o3 <;> exact absurd h (by simp)
            | catch_ y b =>
              cases b with
              | false => cases o3 <;> exact absurd h (by simp)
              | true =>
                cases o3 with
                | norm => exact hfin e true false s3 (u ++ v) hv' (bu.append bv) h
                | ret => exact absurd h (by simp)
                | exn e' => exact hfin e' false true s3 (u ++ v) hv' (bu.append bv) h
theorem adds_cls : ∀ (cs : Cls σ), cs.allFin → ∀ (e : Exn) (s : σ × List Ev) (r : SRes (σ × List Ev)),
    sexecCls cs.rec_ e s = some r → Adds s.2 r
  | .nil, _, e, s, r, h => by simp only [Cls.rec_, sexecCls] at h; exact absurd h (by simp)
  | .cons p b hd rest, hf, e, s, r, h => by
    simp only [Cls.rec_, sexecCls] at h
    split at h
    · injection h with h
      rw [← h]
      exact adds_exec hd hf.1 e _ (b e s.1, s.2)
    · exact adds_cls rest hf.2 e s r h
end

/-- Claim C45: in every program within the rules each `try` statement that is entered executes its finally block exactly
once, whether the body ends normally, by a caught or an uncaught exception, or the catch block throws. -/
theorem finally_once_partial (p : Prog σ) (hf : p.allFin) (d : σ) (o : SOut) (d' : Dyn) (s' : σ × List Ev)
    (h : sexec p.rec_ none .body (d, []) = some (o, d', s')) :
    Balanced (exec 0 p.rec_ (M.init (d, []))).2.dat.2 := by
  rw [(exceptions_follow_spec_partial p.rec_ (d, []) o d' s' h).2]
  obtain ⟨u, hu, bu⟩ := adds_exec p hf none .body (d, []) o d' s' h
  rw [hu]
  exact bu

/-- A case that meets the hypotheses: the catch block of an inner statement throws, an outer statement catches. -/
def demo : Prog Nat :=
  .try_ (.try_ (.throw fun _ => ⟨1, none⟩) (.cons .any (fun _ => id) (.throw fun _ => ⟨2, none⟩) .nil) true (fun _ _ => id)
    (.act (· + 1))) (.cons (.name 2) (fun _ => id) (.act (· * 10)) .nil) true (fun _ _ => id) (.act (· + 5))

example : demo.allFin := by simp [demo, Prog.allFin, Cls.allFin]
example : (sexec demo.rec_ none .body (0, [])).map (·.2.2) = some (15, [.enter, .enter, .fin, .fin]) := by decide
example : (exec 0 demo.rec_ (M.init (0, []))).2.dat = (15, [.enter, .enter, .fin, .fin]) := by decide

/-- Against C44 and C45: a `catch_if` block that does not accept the exception is executed twice, the finally block not at
all; for every such statement. -/
theorem catch_if_twice_without_finally (e : Exc) (h g : σ → σ) (fb : Exn → Bool → σ → σ) (d : σ) :
    let r := exec 0 (.try_ (.throw fun _ => e) (.cons .cond (fun _ => id) (.act h) .nil) true fb (.act g)) (M.init d)
    r.1 = .dead ∧ r.2.dat = h (h d) := by
  simp [exec, execCls, tryStmt, tryLoop, chain, M.set, M.init, throwTo, tryS, throwS, matches_, catchState, finish]

end Verif.Except
