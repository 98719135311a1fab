import Mathlib.Logic.Function.Basic
import Mathlib.Data.List.Basic

/-!
# Texts returned by `str_itoa` and `ex_strerror` (`src/arrays.c` 1595-1631, `src/except.c` 413-431, 998-1037, 1117-1136,
1195-1214), C262

Both functions return a pointer into a buffer (`scrape`) of a scope: `str_itoa` into that of the scope of the thread, `ex_strerror`
into that of the guard section it is used in, or of the thread.  The model is one thread with any number of tasks, of which the
event library is in use; threads share none of this.  `none` is undefined behaviour (a null pointer or freed memory).
-/

namespace Verif.Except.Scratch

/-- Where a returned text lies: in the scope of the thread or in the block of a guard section. -/
inductive Loc where
  | thread
  | block (g : Nat)
  deriving DecidableEq

/-- `scope`: the buffer of the thread's scope (`none`: there is none yet).  `blk g`: the buffer of a guard section's block
(`none`: freed or never made).  `arena` and `guarded`: `scope_local()->arena` and `->status`.  `tscope t`: `scope` of task `t`.
`own t`: the guard sections task `t` is inside of, innermost first, with `_g_arena` (include/except.h:335). -/
structure St where
  scope : Option String
  blk : Nat → Option String
  n : Nat
  arena : Option Nat
  guarded : Bool
  tscope : Nat → Option Nat
  own : Nat → List (Nat × Option Nat)

inductive Op where
  /-- Task `t` calls `str_itoa`; `x` is the text it makes (C19). -/
  | itoa (t : Nat) (x : String)
  /-- Task `t` calls `ex_strerror`; `m` is the text.  (GNU `strerror_r` writes the buffer for unknown codes only; for the others
  it returns a constant, which is not modelled.) -/
  | strerror (t : Nat) (m : String)
  /-- Task `t` enters a guard section. -/
  | guard (t : Nat)
  /-- Task `t` leaves its innermost guard section normally. -/
  | unguard (t : Nat)
  deriving DecidableEq

/-- The scope of the thread after `scope_init`, src/except.c:998-1022. -/
def made (s : St) : Option String := some (s.scope.getD "")

/-- The scope `get_scope` returns, src/except.c:1025-1037. -/
def getScope (s : St) (t : Nat) : Option Loc :=
  match s.tscope t with
  | some g => some (.block g)
  | none => if s.guarded then s.arena.map .block else some .thread

/-- Writing a buffer. -/
def put (s : St) (m : String) : Loc → Option St
  | .thread => some { s with scope := some m }
  | .block g =>
    match s.blk g with
    | some _ => some { s with blk := Function.update s.blk g (some m) }
    | none => none

/-- The state after a call and where the text returned lies. -/
def step (s : St) : Op → Option (St × Option Loc)
  | .itoa _ x =>
    match s.scope with
    | some _ => some ({ s with scope := some x }, some .thread)
    | none => none
  | .strerror t m =>
    match getScope s t with
    | none => none
    | some p => (put { s with scope := if s.tscope t = none then made s else s.scope } m p).map fun s' => (s', some p)
  | .guard t =>
    some ({ scope := made s
            blk := Function.update s.blk s.n (some "")
            n := s.n + 1
            arena := some s.n
            guarded := true
            tscope := Function.update s.tscope t (some s.n)
            own := Function.update s.own t ((s.n, s.arena) :: s.own t) }, none)
  | .unguard t =>
    match s.own t with
    | [] => some (s, none)
    | (g, a) :: r =>
      some ({ s with
              blk := Function.update s.blk g none
              guarded := if a = none then false else s.guarded
              arena := a
              tscope := Function.update s.tscope t none
              own := Function.update s.own t r }, none)

def run (s : St) : List Op → Option St
  | [] => some s
  | o :: l => (step s o).bind fun r => run r.1 l

def init : St := ⟨none, fun _ => none, 0, none, false, fun _ => none, fun _ => []⟩

/-- What a returned pointer points to. -/
def text (s : St) : Loc → Option String
  | .thread => s.scope
  | .block g => s.blk g

/-! ## Specification -/

/-- The call returns a text of its own. -/
def Writes : Op → Prop
  | .itoa _ _ => True
  | .strerror _ _ => True
  | _ => False

/-- The text a call asks for. -/
def wanted : Op → Option String
  | .itoa _ x => some x
  | .strerror _ m => some m
  | _ => none

/-- The call makes the thread's scope. -/
def Makes : Op → Prop
  | .strerror _ _ => True
  | .guard _ => True
  | _ => False

/-- Guard sections are used by task `t` only. -/
def OnlyGuards (t : Nat) : Op → Prop
  | .guard u => u = t
  | .unguard u => u = t
  | _ => True

/-! ## Proofs -/

theorem run_append (s : St) : ∀ l m, run s (l ++ m) = (run s l).bind fun s' => run s' m
  | [], _ => rfl
  | o :: l, m => by
    simp only [List.cons_append, run]
    cases step s o with
    | none => rfl
    | some r => exact run_append r.1 l m

/-- Every open section belongs to a live block, no block to two sections, and a task's `scope` is a section it is inside of. -/
structure Inv (s : St) : Prop where
  live : ∀ t g a, (g, a) ∈ s.own t → (s.blk g).isSome
  lt : ∀ t g a, (g, a) ∈ s.own t → g < s.n
  dist : ∀ t u g a b, (g, a) ∈ s.own t → (g, b) ∈ s.own u → t = u
  nodup : ∀ t, ((s.own t).map (·.1)).Nodup
  task : ∀ t g, s.tscope t = some g → ∃ a, (g, a) ∈ s.own t
  sc : ∀ t, s.own t ≠ [] → s.scope.isSome

theorem init_inv : Inv init :=
  ⟨by simp [init], by simp [init], by simp [init], by simp [init], by simp [init], by simp [init]⟩

theorem put_fields {s s' : St} {m : String} {p : Loc} (h : put s m p = some s') :
    s'.n = s.n ∧ s'.arena = s.arena ∧ s'.guarded = s.guarded ∧ s'.tscope = s.tscope ∧ s'.own = s.own ∧
    (∀ g, (s'.blk g).isSome = (s.blk g).isSome) ∧ (s.scope.isSome → s'.scope.isSome) ∧ text s' p = some m := by
  cases p with
  | thread =>
    simp only [put, Option.some.injEq] at h
    subst h
    simp [text]
  | block g =>
    simp only [put] at h
    cases hg : s.blk g with
    | none => rw [hg] at h; simp at h
    | some x =>
      rw [hg] at h
      simp only [Option.some.injEq] at h
      subst h
      refine ⟨rfl, rfl, rfl, rfl, rfl, fun k => ?_, id, by simp [text]⟩
      by_cases e : k = g
      · subst e; simp [hg]
      · simp only [Function.update_of_ne e]

theorem keep_inv {s s' : St} (h : Inv s) (hn : s'.n = s.n) (ht : s'.tscope = s.tscope) (ho : s'.own = s.own)
    (hb : ∀ g, (s'.blk g).isSome = (s.blk g).isSome) (hs : s.scope.isSome → s'.scope.isSome) : Inv s' := by
  refine ⟨?_, ?_, ?_, ?_, ?_, ?_⟩
  · rw [ho]; intro t g a hm; rw [hb]; exact h.live t g a hm
  · rw [ho, hn]; exact h.lt
  · rw [ho]; exact h.dist
  · rw [ho]; exact h.nodup
  · rw [ho, ht]; exact h.task
  · rw [ho]; exact fun t ht => hs (h.sc t ht)

theorem strerror_fields {s s' : St} {t : Nat} {m : String} {p : Option Loc} (h : step s (.strerror t m) = some (s', p)) :
    s'.n = s.n ∧ s'.arena = s.arena ∧ s'.guarded = s.guarded ∧ s'.tscope = s.tscope ∧ s'.own = s.own ∧
    (∀ g, (s'.blk g).isSome = (s.blk g).isSome) ∧ (s.scope.isSome → s'.scope.isSome) ∧
    ∃ q, p = some q ∧ getScope s t = some q ∧ text s' q = some m ∧ (s.tscope t = none → s'.scope.isSome) := by
  simp only [step] at h
  cases hg : getScope s t with
  | none => rw [hg] at h; simp at h
  | some q =>
    rw [hg] at h
    simp only [Option.map_eq_some_iff, Prod.mk.injEq] at h
    obtain ⟨s1, h1, rfl, rfl⟩ := h
    obtain ⟨a, b, c, d, e, f, g, k⟩ := put_fields h1
    refine ⟨a, b, c, d, e, f, fun hs => g ?_, q, rfl, rfl, k, fun ht => g ?_⟩
    · simp only
      split <;> simp [made, hs]
    · simp [made, ht]

theorem step_inv {s s' : St} {o : Op} {p : Option Loc} (h : Inv s) (hs : step s o = some (s', p)) : Inv s' := by
  cases o with
  | itoa t x =>
    simp only [step] at hs
    cases hc : s.scope with
    | none => rw [hc] at hs; simp at hs
    | some y =>
      rw [hc] at hs
      simp only [Option.some.injEq, Prod.mk.injEq] at hs
      obtain ⟨rfl, rfl⟩ := hs
      exact keep_inv h rfl rfl rfl (fun _ => rfl) (fun _ => rfl)
  | strerror t m =>
    obtain ⟨a, _, _, d, e, f, g, _⟩ := strerror_fields hs
    exact keep_inv h a d e f g
  | guard t =>
    simp only [step, Option.some.injEq, Prod.mk.injEq] at hs
    obtain ⟨rfl, rfl⟩ := hs
    have memU : ∀ u g a, (g, a) ∈ Function.update s.own t ((s.n, s.arena) :: s.own t) u →
        (u = t ∧ g = s.n) ∨ (g, a) ∈ s.own u := by
      intro u g a hm
      by_cases e : u = t
      · subst e
        simp at hm
        rcases hm with hm | hm
        · exact Or.inl ⟨rfl, hm.1⟩
        · exact Or.inr hm
      · rw [Function.update_of_ne e] at hm; exact Or.inr hm
    refine ⟨fun u g a hm => ?_, fun u g a hm => ?_, fun u v g a b hu hv => ?_, fun u => ?_, fun u g hg => ?_, fun _ _ => rfl⟩
    · rcases memU u g a hm with ⟨_, rfl⟩ | hm
      · simp
      · have : g ≠ s.n := Nat.ne_of_lt (h.lt u g a hm)
        simp only [Function.update_of_ne this]
        exact h.live u g a hm
    · rcases memU u g a hm with ⟨_, rfl⟩ | hm
      · exact Nat.lt_succ_self _
      · exact Nat.lt_succ_of_lt (h.lt u g a hm)
    · rcases memU u g a hu with ⟨e1, rfl⟩ | hu1
      · rcases memU v s.n b hv with ⟨e2, _⟩ | hv1
        · exact e1.trans e2.symm
        · exact absurd (h.lt v _ b hv1) (Nat.lt_irrefl _)
      · rcases memU v g b hv with ⟨_, rfl⟩ | hv1
        · exact absurd (h.lt u _ a hu1) (Nat.lt_irrefl _)
        · exact h.dist u v g a b hu1 hv1
    · by_cases e : u = t
      · subst e
        simp only [Function.update_self, List.map_cons, List.nodup_cons]
        refine ⟨fun hm => ?_, h.nodup u⟩
        obtain ⟨⟨g, a⟩, hm, he⟩ := List.mem_map.mp hm
        exact absurd (h.lt u g a hm) (by simp only at he; rw [he]; exact Nat.lt_irrefl _)
      · simp only [Function.update_of_ne e]; exact h.nodup u
    · by_cases e : u = t
      · subst e
        simp at hg
        exact ⟨s.arena, by simp [hg]⟩
      · simp only [Function.update_of_ne e] at hg ⊢
        exact h.task u g hg
  | unguard t =>
    simp only [step] at hs
    cases ho : s.own t with
    | nil =>
      rw [ho] at hs
      simp only [Option.some.injEq, Prod.mk.injEq] at hs
      obtain ⟨rfl, rfl⟩ := hs
      exact h
    | cons x r =>
      obtain ⟨g, a⟩ := x
      rw [ho] at hs
      simp only [Option.some.injEq, Prod.mk.injEq] at hs
      obtain ⟨rfl, rfl⟩ := hs
      have hnd := h.nodup t
      rw [ho] at hnd
      simp only [List.map_cons, List.nodup_cons] at hnd
      have memU : ∀ u k b, (k, b) ∈ Function.update s.own t r u → (k, b) ∈ s.own u ∧ k ≠ g := by
        intro u k b hm
        by_cases e : u = t
        · subst e
          simp at hm
          refine ⟨by rw [ho]; simp [hm], fun hk => hnd.1 ?_⟩
          rw [← hk]
          exact List.mem_map.mpr ⟨(k, b), hm, rfl⟩
        · rw [Function.update_of_ne e] at hm
          refine ⟨hm, fun hk => e ?_⟩
          subst hk
          exact h.dist u t k b a hm (by rw [ho]; simp)
      refine ⟨fun u k b hm => ?_, fun u k b hm => h.lt u k b (memU u k b hm).1, fun u v k b c hu hv =>
        h.dist u v k b c (memU u k b hu).1 (memU v k c hv).1, fun u => ?_, fun u k hk => ?_, fun u hu => ?_⟩
      · obtain ⟨h1, h2⟩ := memU u k b hm
        simp only [Function.update_of_ne h2]
        exact h.live u k b h1
      · by_cases e : u = t
        · subst e; simpa using hnd.2
        · simp only [Function.update_of_ne e]; exact h.nodup u
      · by_cases e : u = t
        · subst e; simp at hk
        · simp only [Function.update_of_ne e] at hk ⊢
          exact h.task u k hk
      · exact h.sc t (by rw [ho]; simp)

theorem run_inv : ∀ (l : List Op) (s s' : St), Inv s → run s l = some s' → Inv s'
  | [], s, s', h, hr => by simp only [run, Option.some.injEq] at hr; subst hr; exact h
  | o :: l, s, s', h, hr => by
    simp only [run, Option.bind_eq_some_iff] at hr
    obtain ⟨⟨s1, p⟩, h1, h2⟩ := hr
    exact run_inv l s1 s' (step_inv h h1) h2

theorem made_text {s s' : St} {o : Op} {p : Option Loc} (ho : ¬ Writes o) (hs : step s o = some (s', p)) (q : Loc)
    (m : String) (ht : text s q = some m) (hlt : ∀ g, q = .block g → g < s.n) :
    (text s' q = some m ∨ (∃ g t a, q = .block g ∧ o = .unguard t ∧ (g, a) ∈ s.own t)) ∧ ∀ g, q = .block g → g < s'.n := by
  cases o with
  | itoa => exact absurd trivial ho
  | strerror => exact absurd trivial ho
  | guard t =>
    simp only [step, Option.some.injEq, Prod.mk.injEq] at hs
    obtain ⟨rfl, rfl⟩ := hs
    refine ⟨Or.inl ?_, fun g hg => Nat.lt_succ_of_lt (hlt g hg)⟩
    cases q with
    | thread => simp only [text] at ht; simp [text, made, ht]
    | block g =>
      simp only [text, Function.update_of_ne (Nat.ne_of_lt (hlt g rfl))]
      exact ht
  | unguard t =>
    simp only [step] at hs
    cases hown : s.own t with
    | nil =>
      rw [hown] at hs
      simp only [Option.some.injEq, Prod.mk.injEq] at hs
      obtain ⟨rfl, rfl⟩ := hs
      exact ⟨Or.inl ht, hlt⟩
    | cons x r =>
      obtain ⟨g, a⟩ := x
      rw [hown] at hs
      simp only [Option.some.injEq, Prod.mk.injEq] at hs
      obtain ⟨rfl, rfl⟩ := hs
      refine ⟨?_, hlt⟩
      cases q with
      | thread => exact Or.inl ht
      | block k =>
        by_cases e : k = g
        · exact Or.inr ⟨k, t, a, rfl, rfl, by rw [e, hown]; simp⟩
        · simp only [text, Function.update_of_ne e]
          exact Or.inl ht

theorem step_lt {s s' : St} {o : Op} {p : Option Loc} (hi : Inv s) (ha : ∀ g, s.arena = some g → g < s.n)
    (hs : step s o = some (s', p)) : (∀ g, p = some (.block g) → g < s'.n) ∧ (p ≠ none → ∃ q m, p = some q ∧ wanted o = some m ∧ text s' q = some m) := by
  cases o with
  | itoa t x =>
    simp only [step] at hs
    cases hc : s.scope with
    | none => rw [hc] at hs; simp at hs
    | some y =>
      rw [hc] at hs
      simp only [Option.some.injEq, Prod.mk.injEq] at hs
      obtain ⟨rfl, rfl⟩ := hs
      exact ⟨by simp, fun _ => ⟨.thread, x, rfl, rfl, rfl⟩⟩
  | strerror t m =>
    obtain ⟨a, b, c, d, e, f, g, q, rfl, h1, h2, _⟩ := strerror_fields hs
    refine ⟨fun k hk => ?_, fun _ => ⟨q, m, rfl, rfl, h2⟩⟩
    simp only [Option.some.injEq] at hk
    subst hk
    rw [a]
    unfold getScope at h1
    split at h1
    · rename_i j hj
      simp only [Option.some.injEq, Loc.block.injEq] at h1
      subst h1
      obtain ⟨x, hx⟩ := hi.task t j hj
      exact hi.lt t j x hx
    · split at h1
      · simp only [Option.map_eq_some_iff, Loc.block.injEq] at h1
        obtain ⟨j, hj, rfl⟩ := h1
        exact ha j hj
      · simp at h1
  | guard t =>
    simp only [step, Option.some.injEq, Prod.mk.injEq] at hs
    obtain ⟨rfl, rfl⟩ := hs
    exact ⟨by simp, fun h => absurd rfl h⟩
  | unguard t =>
    simp only [step] at hs
    split at hs <;> simp only [Option.some.injEq, Prod.mk.injEq] at hs <;> obtain ⟨rfl, rfl⟩ := hs <;>
      exact ⟨by simp, fun h => absurd rfl h⟩

/-- Nothing points behind the blocks made. -/
def Below (s : St) : Prop := (∀ g, s.arena = some g → g < s.n) ∧ ∀ t g a, (g, some a) ∈ s.own t → a < s.n

theorem step_below {s s' : St} {o : Op} {p : Option Loc} (h : Below s) (hs : step s o = some (s', p)) : Below s' := by
  cases o with
  | itoa t x =>
    simp only [step] at hs
    cases hc : s.scope with
    | none => rw [hc] at hs; simp at hs
    | some y =>
      rw [hc] at hs
      simp only [Option.some.injEq, Prod.mk.injEq] at hs
      obtain ⟨rfl, rfl⟩ := hs
      exact h
  | strerror t m =>
    obtain ⟨a, b, _, _, e, _⟩ := strerror_fields hs
    unfold Below
    rw [a, b, e]
    exact h
  | guard t =>
    simp only [step, Option.some.injEq, Prod.mk.injEq] at hs
    obtain ⟨rfl, rfl⟩ := hs
    refine ⟨fun g hg => by simp only [Option.some.injEq] at hg; simp [← hg], fun u g a hm => ?_⟩
    by_cases e : u = t
    · subst e
      simp at hm
      rcases hm with ⟨_, hm⟩ | hm
      · exact Nat.lt_succ_of_lt (h.1 a hm.symm)
      · exact Nat.lt_succ_of_lt (h.2 u g a hm)
    · simp only [Function.update_of_ne e] at hm
      exact Nat.lt_succ_of_lt (h.2 u g a hm)
  | unguard t =>
    simp only [step] at hs
    cases hown : s.own t with
    | nil =>
      rw [hown] at hs
      simp only [Option.some.injEq, Prod.mk.injEq] at hs
      obtain ⟨rfl, rfl⟩ := hs
      exact h
    | cons x r =>
      obtain ⟨g, a⟩ := x
      rw [hown] at hs
      simp only [Option.some.injEq, Prod.mk.injEq] at hs
      obtain ⟨rfl, rfl⟩ := hs
      refine ⟨fun k hk => h.2 t g k (by rw [hown]; simp only at hk; simp [hk]), fun u k b hm => ?_⟩
      by_cases e : u = t
      · subst e; simp at hm; exact h.2 u k b (by rw [hown]; simp [hm])
      · simp only [Function.update_of_ne e] at hm; exact h.2 u k b hm

theorem run_below : ∀ (l : List Op) (s s' : St), Below s → run s l = some s' → Below s'
  | [], s, s', h, hr => by simp only [run, Option.some.injEq] at hr; subst hr; exact h
  | o :: l, s, s', h, hr => by
    simp only [run, Option.bind_eq_some_iff] at hr
    obtain ⟨⟨s1, p⟩, h1, h2⟩ := hr
    exact run_below l s1 s' (step_below h h1) h2

theorem init_below : Below init := ⟨by simp [init], by simp [init]⟩

theorem run_text : ∀ (l : List Op) (s s' : St) (q : Loc) (m : String), (∀ o ∈ l, ¬ Writes o) → run s l = some s' →
    text s q = some m → (∀ g, q = .block g → g < s.n) → (∀ g t, q = .block g → .unguard t ∉ l) → text s' q = some m
  | [], s, s', q, m, _, hr, ht, _, _ => by simp only [run, Option.some.injEq] at hr; subst hr; exact ht
  | o :: l, s, s', q, m, ho, hr, ht, hlt, hu => by
    simp only [run, Option.bind_eq_some_iff] at hr
    obtain ⟨⟨s1, p⟩, h1, h2⟩ := hr
    obtain ⟨k1, k2⟩ := made_text (ho o (by simp)) h1 q m ht hlt
    refine run_text l s1 s' q m (fun o h => ho o (by simp [h])) h2 ?_ k2 (fun g t hq hm => hu g t hq (by simp [hm]))
    rcases k1 with k1 | ⟨g, t, a, hq, rfl, _⟩
    · exact k1
    · exact absurd (by simp) (hu g t hq)

/-! ### One task uses guard sections -/

/-- `l` are the sections of task `t`, each with the next outer one as saved `arena`. -/
def Chain : List (Nat × Option Nat) → Prop
  | [] => True
  | (_, a) :: l => a = (l.map (·.1)).head? ∧ Chain l

structure One (t : Nat) (s : St) : Prop where
  inv : Inv s
  others : ∀ u, u ≠ t → s.own u = []
  chain : Chain (s.own t)
  arena : s.arena = ((s.own t).map (·.1)).head?
  flag : s.guarded = !(s.own t).isEmpty

theorem step_one {t : Nat} {s s' : St} {o : Op} {p : Option Loc} (h : One t s) (ho : OnlyGuards t o)
    (hs : step s o = some (s', p)) : One t s' := by
  have hi := step_inv h.inv hs
  cases o with
  | itoa u x =>
    simp only [step] at hs
    cases hc : s.scope with
    | none => rw [hc] at hs; simp at hs
    | some y =>
      rw [hc] at hs
      simp only [Option.some.injEq, Prod.mk.injEq] at hs
      obtain ⟨rfl, rfl⟩ := hs
      exact ⟨hi, h.others, h.chain, h.arena, h.flag⟩
  | strerror u m =>
    obtain ⟨_, b, c, _, e, _⟩ := strerror_fields hs
    exact ⟨hi, by rw [e]; exact h.others, by rw [e]; exact h.chain, by rw [b, e]; exact h.arena, by rw [c, e]; exact h.flag⟩
  | guard u =>
    have hu : u = t := ho
    subst hu
    simp only [step, Option.some.injEq, Prod.mk.injEq] at hs
    obtain ⟨rfl, rfl⟩ := hs
    refine ⟨hi, fun v hv => ?_, ?_, ?_, ?_⟩
    · simp only [Function.update_of_ne hv]; exact h.others v hv
    · simp only [Function.update_self]; exact ⟨h.arena, h.chain⟩
    · simp
    · simp
  | unguard u =>
    have hu : u = t := ho
    subst hu
    simp only [step] at hs
    cases hown : s.own u with
    | nil =>
      rw [hown] at hs
      simp only [Option.some.injEq, Prod.mk.injEq] at hs
      obtain ⟨rfl, rfl⟩ := hs
      exact h
    | cons x r =>
      obtain ⟨g, a⟩ := x
      rw [hown] at hs
      simp only [Option.some.injEq, Prod.mk.injEq] at hs
      obtain ⟨rfl, rfl⟩ := hs
      have hc := h.chain
      rw [hown] at hc
      have hf := h.flag
      rw [hown] at hf
      refine ⟨hi, fun v hv => ?_, ?_, ?_, ?_⟩
      · simp only [Function.update_of_ne hv]; exact h.others v hv
      · simp only [Function.update_self]; exact hc.2
      · simp only [Function.update_self]; exact hc.1
      · simp only [Function.update_self]
        cases r with
        | nil => simp [hc.1]
        | cons y r => simp [hc.1, hf]

theorem one_ok {t : Nat} {s : St} {o : Op} (h : One t s) (hsc : s.scope.isSome ∨ Makes o ∨ ∃ u, o = .unguard u) :
    ∃ s' p, step s o = some (s', p) := by
  cases o with
  | itoa u x =>
    rcases hsc with hsc | hsc | ⟨_, hsc⟩
    · obtain ⟨y, hy⟩ := Option.isSome_iff_exists.mp hsc
      exact ⟨{ s with scope := some x }, some .thread, by simp only [step, hy]⟩
    · exact absurd hsc (by simp [Makes])
    · simp at hsc
  | guard u => exact ⟨_, _, rfl⟩
  | unguard u =>
    simp only [step]
    cases s.own u with
    | nil => exact ⟨_, _, rfl⟩
    | cons x r => exact ⟨_, _, rfl⟩
  | strerror u m =>
    have key : ∀ g u a, (g, a) ∈ s.own u → ∀ sc, ∃ s', put { s with scope := sc } m (.block g) = some s' := by
      intro g u a hm sc
      obtain ⟨y, hy⟩ := Option.isSome_iff_exists.mp (h.inv.live u g a hm)
      exact ⟨{ s with scope := sc, blk := Function.update s.blk g (some m) }, by simp only [put, hy]⟩
    have : ∃ q, getScope s u = some q ∧ ∀ sc, ∃ s', put { s with scope := sc } m q = some s' := by
      unfold getScope
      cases ht : s.tscope u with
      | some g =>
        obtain ⟨a, ha⟩ := h.inv.task u g ht
        exact ⟨_, rfl, key g u a ha⟩
      | none =>
        simp only
        split
        · rename_i hg
          rw [h.flag] at hg
          cases hown : s.own t with
          | nil => rw [hown] at hg; simp at hg
          | cons x r =>
            obtain ⟨g, a⟩ := x
            have har : s.arena = some g := by rw [h.arena, hown]; rfl
            exact ⟨.block g, by simp [har], key g t a (by rw [hown]; simp)⟩
        · exact ⟨.thread, rfl, fun sc => ⟨_, rfl⟩⟩
    obtain ⟨q, h1, h2⟩ := this
    obtain ⟨s', h3⟩ := h2 (if s.tscope u = none then made s else s.scope)
    exact ⟨s', some q, by simp only [step, h1, h3, Option.map_some]⟩

theorem scope_stays {s s' : St} {o : Op} {p : Option Loc} (hs : step s o = some (s', p)) (hsc : s.scope.isSome) :
    s'.scope.isSome := by
  cases o with
  | itoa u x =>
    simp only [step] at hs
    split at hs
    · simp only [Option.some.injEq, Prod.mk.injEq] at hs; obtain ⟨rfl, rfl⟩ := hs; rfl
    · simp at hs
  | strerror u m => obtain ⟨_, _, _, _, _, _, g, _⟩ := strerror_fields hs; exact g hsc
  | guard u =>
    simp only [step, Option.some.injEq, Prod.mk.injEq] at hs
    obtain ⟨rfl, rfl⟩ := hs; rfl
  | unguard u =>
    simp only [step] at hs
    split at hs <;> simp only [Option.some.injEq, Prod.mk.injEq] at hs <;> obtain ⟨rfl, rfl⟩ := hs <;> exact hsc

theorem scope_makes {s s' : St} {o : Op} {p : Option Loc} (hi : Inv s) (hs : step s o = some (s', p)) (ho : Makes o) :
    s'.scope.isSome := by
  cases o with
  | itoa => exact absurd ho (by simp [Makes])
  | unguard => exact absurd ho (by simp [Makes])
  | guard u =>
    simp only [step, Option.some.injEq, Prod.mk.injEq] at hs
    obtain ⟨rfl, rfl⟩ := hs; rfl
  | strerror u m =>
    have hs0 := hs
    obtain ⟨_, _, _, _, _, _, g, q, _, _, _, k⟩ := strerror_fields hs
    cases ht : s.tscope u with
    | none => exact k ht
    | some x =>
      obtain ⟨a, ha⟩ := hi.task u x ht
      exact g (hi.sc u (by intro h; rw [h] at ha; simp at ha))

theorem run_one (t : Nat) : ∀ (l : List Op) (s : St), One t s → (∀ o ∈ l, OnlyGuards t o) → s.scope.isSome →
    ∃ s', run s l = some s'
  | [], s, _, _, _ => ⟨s, rfl⟩
  | o :: l, s, h, ho, hsc => by
    obtain ⟨s1, p, h1⟩ := one_ok h (Or.inl hsc)
    obtain ⟨s', h2⟩ := run_one t l s1 (step_one h (ho o (by simp)) h1) (fun o h => ho o (by simp [h])) (scope_stays h1 hsc)
    exact ⟨s', by simp [run, h1, h2]⟩

theorem init_one (t : Nat) : One t init := ⟨init_inv, by simp [init], by simp [init, Chain], by simp [init], by simp [init]⟩

theorem run_scope : ∀ (l : List Op) (s s' : St), Inv s → run s l = some s' → ((∃ o ∈ l, Makes o) ∨ s.scope.isSome) →
    s'.scope.isSome
  | [], s, s', _, hr, h => by
    simp only [run, Option.some.injEq] at hr; subst hr
    rcases h with ⟨_, h, _⟩ | h
    · simp at h
    · exact h
  | o :: l, s, s', hi, hr, h => by
    simp only [run, Option.bind_eq_some_iff] at hr
    obtain ⟨⟨s1, p⟩, h1, h2⟩ := hr
    refine run_scope l s1 s' (step_inv hi h1) h2 ?_
    rcases h with ⟨x, hx, hm⟩ | h
    · simp at hx
      rcases hx with rfl | hx
      · exact Or.inr (scope_makes hi h1 hm)
      · exact Or.inl ⟨x, hx, hm⟩
    · exact Or.inr (scope_stays h1 h)

theorem run_no_scope : ∀ (l : List Op) (s s' : St), run s l = some s' → (∀ o ∈ l, ¬ Makes o) → s.scope = none →
    s'.scope = none
  | [], s, s', hr, _, h => by simp only [run, Option.some.injEq] at hr; subst hr; exact h
  | o :: l, s, s', hr, ho, h => by
    simp only [run, Option.bind_eq_some_iff] at hr
    obtain ⟨⟨s1, p⟩, h1, h2⟩ := hr
    refine run_no_scope l s1 s' h2 (fun o h => ho o (by simp [h])) ?_
    cases o with
    | itoa u x => simp [step, h] at h1
    | strerror u m => exact absurd (trivial : Makes (.strerror u m)) (ho (.strerror u m) (by simp))
    | guard u => exact absurd (trivial : Makes (.guard u)) (ho (.guard u) (by simp))
    | unguard u =>
      simp only [step] at h1
      split at h1 <;> simp only [Option.some.injEq, Prod.mk.injEq] at h1 <;> obtain ⟨rfl, rfl⟩ := h1 <;> exact h

/-- The state after task `t` has entered a guard section in which `m` was written. -/
def guardedWith (s : St) (t : Nat) (m : String) : St :=
  { scope := made s
    blk := Function.update s.blk s.n (some m)
    n := s.n + 1
    arena := some s.n
    guarded := true
    tscope := Function.update s.tscope t (some s.n)
    own := Function.update s.own t ((s.n, s.arena) :: s.own t) }

/-! ## C262 -/

/-- **C262** (full statement: a text returned stays what it is until the same task asks for another one; false).  What holds:
after any history the text returned is the one asked for, and it stays as long as no task of the thread asks for another one
and, if it lies in a guard section, no task leaves one. -/
theorem text_kept_partial (h : List Op) (s s1 s2 : St) (o : Op) (q : Loc) (m : String) (l : List Op) (hh : run init h = some s)
    (ho : step s o = some (s1, some q)) (hm : wanted o = some m) (hl : run s1 l = some s2) (hw : ∀ x ∈ l, ¬ Writes x)
    (hu : q ≠ .thread → ∀ t, .unguard t ∉ l) : text s2 q = some m := by
  have hi := run_inv h init s init_inv hh
  have hb := run_below h init s init_below hh
  obtain ⟨k1, k2⟩ := step_lt hi hb.1 ho
  obtain ⟨q', m', e1, e2, e3⟩ := k2 (by simp)
  simp only [Option.some.injEq] at e1
  subst e1
  rw [hm] at e2
  simp only [Option.some.injEq] at e2
  subst e2
  exact run_text l s1 s2 q m hw hl e3 (fun g hg => k1 g (by rw [hg])) (fun g t hg => hu (by rw [hg]; simp) t)

/-- **C262**, false of the code: the text a task has from `str_itoa` becomes the text of the next call in any task of the
thread. -/
theorem other_task_overwrites (s : St) (t u : Nat) (x y : String) (h : s.scope.isSome) :
    ∃ s1 s2, step s (.itoa t x) = some (s1, some .thread) ∧ text s1 .thread = some x ∧
      step s1 (.itoa u y) = some (s2, some .thread) ∧ text s2 .thread = some y := by
  obtain ⟨z, hz⟩ := Option.isSome_iff_exists.mp h
  exact ⟨{ s with scope := some x }, { s with scope := some y }, by simp [step, hz], rfl, by simp [step], rfl⟩

/-- **C262**: after a history without undefined behaviour `str_itoa` is defined exactly if something made a scope in the thread
before (`ex_strerror` or a guard section here); as the first thing a thread does it writes to a null pointer. -/
theorem itoa_ok_iff (l : List Op) (s : St) (h : run init l = some s) (t : Nat) (x : String) :
    (step s (.itoa t x)).isSome ↔ ∃ o ∈ l, Makes o := by
  constructor
  · intro hs
    by_contra hc
    have := run_no_scope l init s h (fun o ho hm => hc ⟨o, ho, hm⟩) rfl
    simp [step, this] at hs
  · intro hm
    obtain ⟨z, hz⟩ := Option.isSome_iff_exists.mp (run_scope l init s init_inv h (Or.inl hm))
    simp [step, hz]

/-- **C262**, false of the code: a text from `ex_strerror` inside a guard section is in freed memory when the section is left. -/
theorem gone_after_guard (s : St) (t : Nat) (m : String) :
    ∃ s1 s2, run s [.guard t] = some s1 ∧ step s1 (.strerror t m) = some (s2, some (.block s.n)) ∧
      ∃ s3, run s2 [.unguard t] = some s3 ∧ text s3 (.block s.n) = none := by
  refine ⟨_, guardedWith s t m, rfl, ?_, ?_⟩
  · simp [step, getScope, put, guardedWith]
  · simp [run, step, text, guardedWith]

/-- **C262**, false of the code: so is the text of another task that has no guard section, if it asked for it while the guard
section of the first was open. -/
theorem gone_after_guard_of_other (s : St) (t u : Nat) (htu : u ≠ t) (m : String) (hu : s.tscope u = none) :
    ∃ s1 s2, run s [.guard t] = some s1 ∧ step s1 (.strerror u m) = some (s2, some (.block s.n)) ∧
      ∃ s3, run s2 [.unguard t] = some s3 ∧ text s3 (.block s.n) = none := by
  refine ⟨_, guardedWith s t m, rfl, ?_, ?_⟩
  · simp [step, getScope, put, Function.update_of_ne htu, hu, made, guardedWith]
  · simp [run, step, text, guardedWith]

/-- **C262**, false of the code: when the guard sections of two tasks overlap and a third one has been entered and left since,
`ex_strerror` writes into freed memory. -/
theorem strerror_into_freed (s : St) (t u v : Nat) (htu : u ≠ t) (m : String) (ha : s.arena = none) :
    ∃ s1, run s [.guard t, .guard u, .unguard t, .unguard u, .guard v, .unguard v] = some s1 ∧ step s1 (.strerror v m) = none := by
  have hut : t ≠ u := Ne.symm htu
  refine ⟨_, by simp [run, step, ha, htu, hut]; rfl, ?_⟩
  have e1 : s.n ≠ s.n + 1 + 1 := by omega
  have e2 : s.n ≠ s.n + 1 := by omega
  simp [step, getScope, put, Function.update_of_ne e1, Function.update_of_ne e2]

/-- **C262**, what holds: if guard sections are used by one task only and the first call makes a scope, no call of `str_itoa` or
`ex_strerror` of any task has undefined behaviour.
Missing: guard sections of several tasks (`strerror_into_freed`). -/
theorem no_fault_partial (t : Nat) (o : Op) (l : List Op) (ho : Makes o) (hl : ∀ x ∈ o :: l, OnlyGuards t x) :
    ∃ s, run init (o :: l) = some s := by
  obtain ⟨s1, p, h1⟩ := one_ok (o := o) (init_one t) (Or.inr (Or.inl ho))
  obtain ⟨s', h2⟩ := run_one t l s1 (step_one (init_one t) (hl o (by simp)) h1) (fun x hx => hl x (by simp [hx]))
    (scope_makes init_inv h1 ho)
  exact ⟨s', by simp [run, h1, h2]⟩

/-- **C262**, false of the code: outside of guard sections the text of `ex_strerror` becomes that of the next `str_itoa`. -/
theorem one_buffer (s : St) (t u : Nat) (m x : String) (hg : s.guarded = false) (ht : s.tscope t = none) :
    ∃ s1 s2, step s (.strerror t m) = some (s1, some .thread) ∧ text s1 .thread = some m ∧
      step s1 (.itoa u x) = some (s2, some .thread) ∧ text s2 .thread = some x := by
  refine ⟨{ s with scope := some m }, { s with scope := some x }, by simp [step, getScope, hg, ht, put, made], rfl, by simp [step], rfl⟩

example : ((run init [.strerror 0 "No such file", .itoa 0 "42", .guard 0, .strerror 1 "Busy"]).bind fun s => text s (.block 0)) =
    some "Busy" := by decide
example : ((run init [.strerror 0 "No such file", .itoa 0 "42", .guard 0, .strerror 1 "Busy", .unguard 0]).bind
    fun s => text s (.block 0)) = none := by decide
example : (run init [.itoa 0 "42"]).isNone := by decide
example : (run init [.guard 1, .guard 2, .unguard 1, .unguard 2, .guard 3, .unguard 3, .strerror 3 "Busy"]).isNone := by decide
example : Makes (.guard 0) ∧ ∀ x ∈ [Op.guard 0, .itoa 1 "7", .strerror 2 "Busy", .unguard 0], OnlyGuards 0 x := by
  simp [Makes, OnlyGuards]

end Verif.Except.Scratch
