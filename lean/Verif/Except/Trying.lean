import Verif.Except.Guard

/-!
# `trying` (`src/except.c` 1222-1237)

`trying(with, tryFunc, catchFunc, finalFunc)` allocates a value, puts it behind a `fence` that frees it when the scope ends, and
fills it in a `try` statement.  The model is a program of `Verif.Except.Guard`; the data carry, beside the data of the functions,
the field `object` of the value and whether the value was freed, and note a store into the freed value.
-/

namespace Verif.Except.Trying

open Verif.Except Verif.Except.Guard

variable {σ : Type}

/-- The data of the functions and the value that `trying` returns. -/
structure V (σ : Type) where
  dat : σ
  object : Option Nat      -- `value->object`
  freed : Bool             -- `events_free(value)` was called
  misuse : Bool            -- the value was written after that

/-- `events_free`, deferred by `fence`, src/except.c:1105-1115 and 1223. -/
def freeValue : D (V σ) := ⟨none, fun _ v => { v with freed := true }⟩

/-- `value->object = …`. -/
def store (r : σ → Nat) : G (V σ) := .act fun v => { v with object := some (r v.dat), misuse := v.misuse || v.freed }

/-- A function of the caller, as a program on its own data, which may throw; `r` is what it returns. -/
structure Fn (σ : Type) where
  body : G (V σ)
  r : σ → Nat

/-- `trying`, src/except.c:1222-1237.  There is memory for the value.  `finally` is run after the `try` or the `catch` part; that it
also runs if `catchFunc` throws is left out. -/
def trying (tryFn : Fn σ) (catchFn : Option (Fn σ)) (finalFn : Option (G (V σ))) : G (V σ) :=
  .seq (.fence freeValue) (.seq
    (.tryAny (.seq tryFn.body (store tryFn.r))
      (match catchFn with
      | some c => .seq c.body (store c.r)
      | none => .act id))
    (finalFn.getD (.act id)))

/-! ## Lemmas -/

/-- A deferred function leaves the value alone. -/
def DKeeps (d : D (V σ)) : Prop :=
  ∀ b v, (d.f b v).object = v.object ∧ (d.f b v).freed = v.freed ∧ (d.f b v).misuse = v.misuse

/-- The functions of the caller know nothing of the value (it is returned to the caller later). -/
def Keeps : G (V σ) → Prop
  | .act f => ∀ v, (f v).object = v.object ∧ (f v).freed = v.freed ∧ (f v).misuse = v.misuse
  | .seq p q => Keeps p ∧ Keeps q
  | .ite _ p q => Keeps p ∧ Keeps q
  | .rep _ p => Keeps p
  | .throw _ => True
  | .defer d => DKeeps d
  | .fence d => DKeeps d
  | .guard p => Keeps p
  | .tryAny p q => Keeps p ∧ Keeps q

/-- The deferred functions of all guard sections leave the value alone. -/
def Ok (s : S (V σ)) : Prop := ∀ b l, (s.blk b).defers = some l → ∀ d ∈ l, DKeeps d

/-- The value is the same. -/
def Same (s s' : S (V σ)) : Prop :=
  s'.dat.object = s.dat.object ∧ s'.dat.freed = s.dat.freed ∧ s'.dat.misuse = s.dat.misuse

theorem Same.refl (s : S (V σ)) : Same s s := ⟨rfl, rfl, rfl⟩

theorem Same.trans {a b c : S (V σ)} (h1 : Same a b) (h2 : Same b c) : Same a c :=
  ⟨h2.1.trans h1.1, h2.2.1.trans h1.2.1, h2.2.2.trans h1.2.2⟩

theorem runD_keeps (e : Exn) (l : List (D (V σ))) (v : V σ) (h : ∀ d ∈ l, DKeeps d) :
    (runD e l v).2.object = v.object ∧ (runD e l v).2.freed = v.freed ∧ (runD e l v).2.misuse = v.misuse := by
  induction l generalizing v with
  | nil => exact ⟨rfl, rfl, rfl⟩
  | cons d l ih =>
      have h1 := h d (List.mem_cons_self ..) (hit e d) v
      have h2 := ih (d.f (hit e d) v) fun x hx => h x (List.mem_cons_of_mem _ hx)
      exact ⟨h2.1.trans h1.1, h2.2.1.trans h1.2.1, h2.2.2.trans h1.2.2⟩

theorem Ok.set {s : S (V σ)} (h : Ok s) (b : Nat) (x : Blk (V σ)) (hx : ∀ l, x.defers = some l → ∀ d ∈ l, DKeeps d) :
    Ok (s.set b x) := by
  intro b' l hl
  simp only [S.set] at hl
  by_cases hb : b' = b
  · subst hb
    rw [Function.update_self] at hl
    exact hx l hl
  · rw [Function.update_of_ne hb] at hl
    exact h b' l hl

theorem Ok.of_blk {s s' : S (V σ)} (h : Ok s) (hb : s'.blk = s.blk) : Ok s' := by
  intro b l hl
  rw [hb] at hl
  exact h b l hl

theorem unwind_keeps {s : S (V σ)} (h : Ok s) (b : Nat) : Ok (unwind s b).2 ∧ Same s (unwind s b).2 := by
  unfold unwind
  split
  · exact ⟨h, Same.refl s⟩
  · rename_i l hl
    refine ⟨?_, runD_keeps _ l s.dat (h b l hl)⟩
    refine (Ok.set h b { s.blk b with defers := none, prot := (s.blk b).prot && (s.blk b).err.isNone } (by simp)).of_blk rfl

theorem hook_keeps {s : S (V σ)} (h : Ok s) (e : Exn) : Ok (hook s e).2 ∧ Same s (hook s e).2 := by
  unfold hook
  split
  · exact ⟨h, Same.refl s⟩
  · rename_i b _
    have h1 : Ok (s.set b { s.blk b with err := e }) := h.set b _ fun l hl => h b l hl
    dsimp only
    split
    · exact unwind_keeps h1 b
    · exact ⟨h1, Same.refl s⟩

theorem reset_keeps {s : S (V σ)} (h : Ok s) (b : Nat) (a0 : Option Nat) : Ok (reset b a0 s).2 ∧ Same s (reset b a0 s).2 := by
  obtain ⟨h1, h2⟩ := unwind_keeps h b
  refine ⟨?_, h2⟩
  exact (Ok.set h1 b { (unwind s b).2.blk b with freed := true } fun l hl => h1 b l hl).of_blk rfl

theorem addDefer_keeps {s : S (V σ)} (h : Ok s) {d : D (V σ)} (hd : DKeeps d) (p : Bool) :
    Ok (addDefer d p s).2 ∧ Same s (addDefer d p s).2 := by
  unfold addDefer
  split
  · exact ⟨h.of_blk rfl, Same.refl s⟩
  · rename_i b _
    split
    · exact ⟨h, Same.refl s⟩
    · rename_i l hl
      refine ⟨h.set b _ ?_, Same.refl s⟩
      intro l' hl'
      injection hl' with hl'
      subst hl'
      intro x hx
      rcases List.mem_cons.1 hx with rfl | hx
      · exact hd
      · exact h b l hl x hx

theorem guardEnd_keeps (stale : Bool) (b : Nat) (a0 : Option Nat) (r : GOut × S (V σ)) (h : Ok r.2) :
    Ok (guardEnd stale b a0 r).2 ∧ Same r.2 (guardEnd stale b a0 r).2 := by
  obtain ⟨o, s⟩ := r
  obtain ⟨h1, h2⟩ := reset_keeps (s := s) h b a0
  cases o with
  | norm => exact ⟨h1, h2⟩
  | ub => exact ⟨h, Same.refl s⟩
  | exn e rec =>
      cases rec with
      | true => exact hook_keeps h e
      | false =>
          simp only [guardEnd]
          split
          · exact ⟨h1, h2⟩
          · split
            · exact ⟨h1, h2⟩
            · obtain ⟨h3, h4⟩ := hook_keeps h1 e
              exact ⟨h3, h2.trans h4⟩

theorem giter_keeps (p : S (V σ) → GOut × S (V σ)) (hp : ∀ s, Ok s → Ok (p s).2 ∧ Same s (p s).2) (n : Nat) (s : S (V σ)) (h : Ok s) :
    Ok (giter p n s).2 ∧ Same s (giter p n s).2 := by
  induction n generalizing s with
  | zero => exact ⟨h, Same.refl s⟩
  | succ n ih =>
      obtain ⟨h1, h2⟩ := hp s h
      unfold giter
      split
      · rename_i s' hps
        rw [hps] at h1 h2
        obtain ⟨h3, h4⟩ := ih s' h1
        exact ⟨h3, h2.trans h4⟩
      · exact ⟨h1, h2⟩

theorem gexec_keeps (stale : Bool) (p : G (V σ)) (hp : Keeps p) (s : S (V σ)) (h : Ok s) :
    Ok (gexec stale p s).2 ∧ Same s (gexec stale p s).2 := by
  induction p generalizing s with
  | act f => exact ⟨h.of_blk rfl, hp s.dat⟩
  | seq p q ihp ihq =>
      obtain ⟨h1, h2⟩ := ihp hp.1 s h
      unfold gexec
      split
      · rename_i s' hps
        rw [hps] at h1 h2
        obtain ⟨h3, h4⟩ := ihq hp.2 s' h1
        exact ⟨h3, h2.trans h4⟩
      · exact ⟨h1, h2⟩
  | ite c p q ihp ihq =>
      unfold gexec
      split
      · exact ihp hp.1 s h
      · exact ihq hp.2 s h
  | rep n p ih => exact giter_keeps _ (fun s' hs' => ih hp s' hs') _ s h
  | throw e => exact hook_keeps h _
  | defer d => exact addDefer_keeps h hp false
  | fence d => exact addDefer_keeps h hp true
  | guard p ih =>
      have h0 : Ok (guardInit s) := by
        intro b l hl
        simp only [guardInit] at hl
        by_cases hb : b = s.n
        · subst hb
          rw [Function.update_self] at hl
          injection hl with hl
          subst hl
          simp
        · rw [Function.update_of_ne hb] at hl
          exact h b l hl
      obtain ⟨h1, h2⟩ := ih hp (guardInit s) h0
      obtain ⟨h3, h4⟩ := guardEnd_keeps stale s.n s.arena (gexec stale p (guardInit s)) h1
      exact ⟨h3, h2.trans h4⟩
  | tryAny p q ihp ihq =>
      obtain ⟨h1, h2⟩ := ihp hp.1 s h
      unfold gexec
      split
      · rename_i e s' hps
        rw [hps] at h1 h2
        obtain ⟨h3, h4⟩ := ihq hp.2 s' h1
        exact ⟨h3, h2.trans h4⟩
      · rename_i e s' hps
        rw [hps] at h1 h2
        obtain ⟨h3, h4⟩ := hook_keeps h1 e
        exact ⟨h3, h2.trans h4⟩
      · exact ⟨h1, h2⟩

/-! ## Properties -/

/-- **C125.**  Outside of guard sections and tasks: if `trying` returns, the value it returns is allocated, was never written after
being freed, and holds what `tryFunc` returned, or, if that threw, what `catchFunc` returned (or nothing without one); `finalFunc` has
run.  Shown for what each part does from the state it meets.  (Partial: false in guard sections, `trying_guard_misuse`.) -/
theorem trying_value_partial (stale : Bool) (tryFn catchFn : Fn σ) (fin : G (V σ)) (hk : Keeps tryFn.body ∧ Keeps catchFn.body ∧ Keeps fin)
    (s : S (V σ)) (hok : Ok s) (hn : s.arena = none) (hv : s.dat.object = none ∧ s.dat.freed = false ∧ s.dat.misuse = false)
    (s' : S (V σ)) (h : gexec stale (trying tryFn (some catchFn) (some fin)) s = (.norm, s')) :
    s'.dat.freed = false ∧ s'.dat.misuse = false ∧
      ∃ s1 : S (V σ), (gexec stale tryFn.body { s with root := freeValue :: s.root } = (.norm, s1) ∧
          s'.dat.object = some (tryFn.r s1.dat.dat)) ∨
        (∃ e s0, gexec stale tryFn.body { s with root := freeValue :: s.root } = (.exn e false, s0) ∧
          gexec stale catchFn.body s0 = (.norm, s1) ∧ s'.dat.object = some (catchFn.r s1.dat.dat)) := by
  have hf : gexec stale (.fence freeValue) s = (.norm, { s with root := freeValue :: s.root }) := by
    simp [gexec, addDefer, hn]
  have hok1 : Ok { s with root := freeValue :: s.root } := hok.of_blk rfl
  obtain ⟨ht1, ht2⟩ := gexec_keeps stale tryFn.body hk.1 _ hok1
  simp only [trying, Option.getD_some] at h
  rw [gexec, hf] at h
  dsimp only at h
  rw [gexec, gexec, gexec] at h
  rcases hr : gexec stale tryFn.body { s with root := freeValue :: s.root } with ⟨o, s1⟩
  rw [hr] at h ht1 ht2
  cases o with
  | ub => simp at h
  | norm =>
      simp only [store, gexec] at h
      have hokS : Ok { s1 with dat := { s1.dat with object := some (tryFn.r s1.dat.dat), misuse := s1.dat.misuse || s1.dat.freed } } :=
        ht1.of_blk rfl
      obtain ⟨-, hfin⟩ := gexec_keeps stale fin hk.2.2 _ hokS
      rw [h] at hfin
      obtain ⟨f1, f2, f3⟩ := hfin
      refine ⟨?_, ?_, s1, Or.inl ⟨rfl, f1⟩⟩
      · rw [f2]; exact ht2.2.1.trans hv.2.1
      · rw [f3]
        have a := ht2.2.1.trans hv.2.1
        have b := ht2.2.2.trans hv.2.2
        simp only at a b
        simp [a, b]
  | exn e rec =>
      cases rec with
      | true =>
          exfalso
          simp only at h
          have : (hook s1 e).1 ≠ .norm := by
            unfold hook
            split
            · simp
            · dsimp only
              split <;> simp
          rcases hh : hook s1 e with ⟨o2, s2⟩
          rw [hh] at h this
          cases o2 with
          | norm => exact this rfl
          | exn => simp at h
          | ub => simp at h
      | false =>
          simp only at h
          rw [gexec] at h
          obtain ⟨hc1, hc2⟩ := gexec_keeps stale catchFn.body hk.2.1 s1 ht1
          rcases hr2 : gexec stale catchFn.body s1 with ⟨o2, s2⟩
          rw [hr2] at h hc1 hc2
          cases o2 with
          | ub => simp at h
          | exn => simp at h
          | norm =>
              simp only [store, gexec] at h
              have hokS : Ok { s2 with dat := { s2.dat with object := some (catchFn.r s2.dat.dat), misuse := s2.dat.misuse || s2.dat.freed } } :=
                hc1.of_blk rfl
              obtain ⟨-, hfin⟩ := gexec_keeps stale fin hk.2.2 _ hokS
              rw [h] at hfin
              obtain ⟨f1, f2, f3⟩ := hfin
              have a : s2.dat.freed = false := hc2.2.1.trans (ht2.2.1.trans hv.2.1)
              have b : s2.dat.misuse = false := hc2.2.2.trans (ht2.2.2.trans hv.2.2)
              refine ⟨?_, ?_, s2, Or.inr ⟨e, s1, rfl, hr2, f1⟩⟩
              · rw [f2]; exact a
              · rw [f3]; simp [a, b]

/-- **C125, negation.**  In a guard section, and so in every task, whatever else is deferred there that does not take the exception: if `tryFunc` throws, the value is
freed before `catchFunc` runs, and its result is written into freed memory. -/
theorem trying_guard_misuse (stale : Bool) (e : σ → Exc) (r c : σ → Nat) (s : S (V σ)) (b : Nat) (l : List (D (V σ))) (harena : s.arena = some b)
    (hl : (s.blk b).defers = some l) (hk : ∀ d ∈ l, DKeeps d) (hc : ∀ d ∈ l, d.catches = none) :
    ∃ s', gexec stale (trying ⟨.throw fun v => e v.dat, r⟩ (some ⟨.act id, c⟩) none) s = (.norm, s') ∧
      s'.dat.freed = true ∧ s'.dat.misuse = true := by
  obtain ⟨s1, hs1⟩ : ∃ s1, s1 = s.set b { s.blk b with defers := some (freeValue :: l), prot := true } := ⟨_, rfl⟩
  have hf : gexec stale (.fence freeValue) s = (.norm, s1) := by
    simp [gexec, addDefer, harena, hl, hs1]
  obtain ⟨x, hx⟩ : ∃ x, some (e s1.dat.dat) = x := ⟨_, rfl⟩
  obtain ⟨s2, hs2, hd2⟩ : ∃ s2, hook s1 x = (.exn x (runD x (freeValue :: l) s1.dat).1, s2) ∧
      s2.dat = (runD x (freeValue :: l) s1.dat).2 := by
    refine ⟨(hook s1 x).2, ?_, ?_⟩
    · simp [hook, hs1, harena, S.set, unwind, Function.update_self]
    · simp [hook, hs1, harena, S.set, unwind, Function.update_self]
  have hno : ∀ (l : List (D (V σ))) (v : V σ), (∀ d ∈ l, d.catches = none) → (runD x l v).1 = false := by
    intro l
    induction l with
    | nil => intro v _; rfl
    | cons d l ih =>
        intro v hd
        have h1 := hd d (List.mem_cons_self ..)
        have h2 := ih (d.f (hit x d) v) fun y hy => hd y (List.mem_cons_of_mem _ hy)
        have h3 : hit x d = false := by simp [hit, h1]
        show (hit x d || (runD x l (d.f (hit x d) v)).1) = false
        rw [h2, h3]
        rfl
  have h1 : (runD x (freeValue :: l) s1.dat).1 = false := by
    refine hno (freeValue :: l) s1.dat fun d hd => ?_
    rcases List.mem_cons.1 hd with rfl | hd
    · rfl
    · exact hc d hd
  have h2 : s2.dat.freed = true := by
    rw [hd2]
    exact (runD_keeps x l _ hk).2.1
  rw [h1] at hs2
  refine ⟨{ s2 with dat := { s2.dat with object := some (c s2.dat.dat), misuse := s2.dat.misuse || s2.dat.freed } }, ?_, h2, by simp [h2]⟩
  simp only [trying, Option.getD_none]
  rw [gexec, hf]
  dsimp only
  rw [gexec, gexec, gexec, gexec, hx, hs2]
  simp [gexec, store]

/-- A program with a `tryFunc` that throws, outside and inside of a guard section. -/
example : (gexec true (trying ⟨.throw fun _ => ⟨3, none⟩, fun n => n + 1⟩ (some ⟨.act id, fun n => n + 2⟩) (some (.act id)))
    (⟨fun _ => ⟨none, false, none, false⟩, 0, none, [], ⟨5, none, false, false⟩⟩ : S (V Nat))).2.dat.object = some 7 := by
  decide

example : (gexec true (.guard (trying ⟨.throw fun _ => ⟨3, none⟩, fun n => n + 1⟩ (some ⟨.act id, fun n => n + 2⟩) none))
    (⟨fun _ => ⟨none, false, none, false⟩, 0, none, [], ⟨5, none, false, false⟩⟩ : S (V Nat))).2.dat.misuse = true := by
  decide

end Verif.Except.Trying
