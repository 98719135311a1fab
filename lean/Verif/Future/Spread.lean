import Mathlib.Logic.Function.Basic
import Mathlib.Data.Nat.ModEq
import Mathlib.Algebra.Order.Group.Nat
import Mathlib.Tactic.Ring

/-!
# How blocking calls are spread over the pool (`src/future.c` 85-88, 338-385), C267

`fs_read`, `async_getaddrinfo` and the like are `queue_work(futures_pool(), …)`: `futures_pool` gives the worker whose turn it is,
`queue_work` moves on to the next.  These are two steps, and threads with loops of their own make such calls at the same time.
All workers of the pool are running.  The counter (a `size_t`) is a natural number here: it does not come round.
-/

namespace Verif.Future.Spread

/-- `count`: `future_id_count`; `picked`: the worker a caller has got from `futures_pool`; `jobs`: the jobs given to each worker. -/
structure St where
  count : Nat
  picked : Nat → Option Nat
  jobs : Nat → Nat

inductive Ev where
  /-- A caller calls `futures_pool`. -/
  | pick (t : Nat)
  /-- It calls `queue_work` with what it got. -/
  | queue (t : Nat)
  deriving DecidableEq

/-- `futures_pool`, src/future.c:85-88, and `queue_work`, src/future.c:338-385, with `k` workers.  In `queue_work` the worker whose
turn it is is looked at only to see that it is there (355-366). -/
def step (k : Nat) (s : St) : Ev → St
  | .pick t => { s with picked := Function.update s.picked t (some (s.count % k)) }
  | .queue t =>
    match s.picked t with
    | none => s
    | some w => ⟨s.count + 1, Function.update s.picked t none, Function.update s.jobs w (s.jobs w + 1)⟩

def run (k : Nat) (s : St) (l : List Ev) : St := l.foldl (step k) s

def init : St := ⟨0, fun _ => none, fun _ => 0⟩

/-! ## Specification -/

/-- Calls made one after the other by these callers. -/
def oneByOne (l : List Nat) : List Ev := l.flatMap fun t => [.pick t, .queue t]

/-- Calls all of which pick before any queues. -/
def allAtOnce (l : List Nat) : List Ev := l.map .pick ++ l.map .queue

/-- After `n` jobs each of `k` workers has its share of them, rounded up or down. -/
def Even (k n : Nat) (jobs : Nat → Nat) : Prop := ∀ w, w < k → n / k ≤ jobs w ∧ jobs w ≤ (n + k - 1) / k

/-! ## Proofs -/

/-- The number of jobs below `c` whose turn is `w`'s. -/
theorem share_succ (k c w : Nat) (hw : w < k) :
    (c + 1 + (k - 1 - w)) / k = (c + (k - 1 - w)) / k + if c % k = w then 1 else 0 := by
  have hd := Nat.div_add_mod c k
  have hm := Nat.mod_lt c (show 0 < k by omega)
  have hk : 0 < k := by omega
  generalize c / k = q at hd
  generalize c % k = r at hd hm
  have e1 : c + 1 + (k - 1 - w) = (r + (k - w)) + k * q := by omega
  have e2 : c + (k - 1 - w) = (r + (k - 1 - w)) + k * q := by omega
  rw [e1, e2, Nat.add_mul_div_left _ _ hk, Nat.add_mul_div_left _ _ hk]
  have small : ∀ a, a < k → a / k = 0 := fun a h => Nat.div_eq_of_lt h
  have big : ∀ a, k ≤ a → a < 2 * k → a / k = 1 := fun a h h' => by
    rw [Nat.div_eq_iff hk]; omega
  by_cases h : r = w
  · rw [if_pos h, big _ (by omega) (by omega), small _ (by omega)]
    omega
  · rw [if_neg h]
    by_cases h' : r < w
    · rw [small _ (by omega), small _ (by omega)]
      omega
    · rw [big _ (by omega) (by omega), big _ (by omega) (by omega)]
      omega

theorem oneByOne_state (k : Nat) (hk : 0 < k) : ∀ (l : List Nat) (s : St),
    (∀ w, w < k → s.jobs w = (s.count + (k - 1 - w)) / k) →
    (run k s (oneByOne l)).count = s.count + l.length ∧
    ∀ w, w < k → (run k s (oneByOne l)).jobs w = (s.count + l.length + (k - 1 - w)) / k
  | [], s, h => ⟨rfl, h⟩
  | t :: l, s, h => by
    have e : run k s (oneByOne (t :: l)) = run k (step k (step k s (.pick t)) (.queue t)) (oneByOne l) := rfl
    have es : step k (step k s (.pick t)) (.queue t) =
        ⟨s.count + 1, Function.update (Function.update s.picked t (some (s.count % k))) t none,
          Function.update s.jobs (s.count % k) (s.jobs (s.count % k) + 1)⟩ := by
      simp [step]
    have hj : ∀ w, w < k → Function.update s.jobs (s.count % k) (s.jobs (s.count % k) + 1) w =
        (s.count + 1 + (k - 1 - w)) / k := by
      intro w hw
      rw [share_succ k s.count w hw]
      by_cases e : s.count % k = w
      · rw [if_pos e, ← e, Function.update_self, h _ (Nat.mod_lt _ hk)]
      · rw [if_neg e, Function.update_of_ne (fun h => e h.symm), h w hw]
        rfl
    obtain ⟨h1, h2⟩ := oneByOne_state k hk l (step k (step k s (.pick t)) (.queue t)) (by rw [es]; exact hj)
    rw [es] at h1 h2
    rw [e, es]
    simp only [List.length_cons]
    refine ⟨by rw [h1]; simp only; omega, fun w hw => ?_⟩
    rw [h2 w hw]
    simp only
    congr 1
    omega

/-- **C267** (full statement: whoever calls and when, each worker gets its share; false, see `one_worker`).  What holds: calls made
one after the other are spread evenly, whoever makes them. -/
theorem even_partial (k : Nat) (hk : 0 < k) (l : List Nat) : Even k l.length (run k init (oneByOne l)).jobs := by
  intro w hw
  have h0 : ∀ w, w < k → init.jobs w = (init.count + (k - 1 - w)) / k := by
    intro w _
    show 0 = (0 + (k - 1 - w)) / k
    rw [Nat.div_eq_of_lt (by omega)]
  obtain ⟨_, h⟩ := oneByOne_state k hk l init h0
  rw [h w hw]
  show l.length / k ≤ (0 + l.length + (k - 1 - w)) / k ∧ (0 + l.length + (k - 1 - w)) / k ≤ _
  exact ⟨Nat.div_le_div_right (by omega), Nat.div_le_div_right (by omega)⟩

/-- **C267**: and each of them takes the next worker's turn: the job made after `l` others goes to worker number `l.length % k`. -/
theorem turn (k : Nat) (hk : 0 < k) (l : List Nat) (t : Nat) :
    (run k init (oneByOne (l ++ [t]))).jobs =
      Function.update (run k init (oneByOne l)).jobs (l.length % k) ((run k init (oneByOne l)).jobs (l.length % k) + 1) := by
  have h0 : ∀ w, w < k → init.jobs w = (init.count + (k - 1 - w)) / k := by
    intro w _
    show 0 = (0 + (k - 1 - w)) / k
    rw [Nat.div_eq_of_lt (by omega)]
  have hc : (run k init (oneByOne l)).count = l.length := by
    rw [(oneByOne_state k hk l init h0).1]
    exact Nat.zero_add _
  have e : run k init (oneByOne (l ++ [t])) = step k (step k (run k init (oneByOne l)) (.pick t)) (.queue t) := by
    simp [run, oneByOne, List.foldl_append]
  rw [e]
  simp [step, hc]

theorem picks (k : Nat) : ∀ (l : List Nat) (s : St),
    (run k s (l.map .pick)).count = s.count ∧ (run k s (l.map .pick)).jobs = s.jobs ∧
    ∀ t, (run k s (l.map .pick)).picked t = if t ∈ l then some (s.count % k) else s.picked t
  | [], s => ⟨rfl, rfl, fun t => by simp [run]⟩
  | u :: l, s => by
    obtain ⟨h1, h2, h3⟩ := picks k l (step k s (.pick u))
    refine ⟨h1, h2, fun t => ?_⟩
    have e : run k s ((u :: l).map .pick) = run k (step k s (.pick u)) (l.map .pick) := rfl
    rw [e, h3 t]
    by_cases ht : t ∈ l
    · simp [ht, step]
    · by_cases hu : t = u
      · subst hu; simp [ht, step]
      · simp [ht, hu, step]

theorem queues (k w : Nat) : ∀ (l : List Nat) (s : St), l.Nodup → (∀ t ∈ l, s.picked t = some w) →
    (run k s (l.map .queue)).jobs = Function.update s.jobs w (s.jobs w + l.length) ∧
    (run k s (l.map .queue)).count = s.count + l.length
  | [], s, _, _ => ⟨by simp [run], rfl⟩
  | u :: l, s, hn, hp => by
    have hu := hp u (by simp)
    have e : run k s ((u :: l).map .queue) = run k (step k s (.queue u)) (l.map .queue) := rfl
    have es : step k s (.queue u) =
        ⟨s.count + 1, Function.update s.picked u none, Function.update s.jobs w (s.jobs w + 1)⟩ := by
      simp [step, hu]
    rw [List.nodup_cons] at hn
    obtain ⟨h1, h2⟩ := queues k w l (step k s (.queue u)) hn.2 (by
      intro t ht
      rw [es]
      have : t ≠ u := fun e => hn.1 (e ▸ ht)
      simp only [Function.update_of_ne this]
      exact hp t (by simp [ht]))
    rw [es] at h1 h2
    rw [e, es, h1, h2]
    simp only [Function.update_self, Function.update_idem, List.length_cons]
    exact ⟨by congr 1; omega, by omega⟩

/-- **C267**, false of the code: any number of callers that ask for a worker before any of them gives its job get the same one; all
their jobs queue up there, and the others stay without. -/
theorem one_worker (k : Nat) (l : List Nat) (hn : l.Nodup) :
    (run k init (allAtOnce l)).jobs = fun w => if w = 0 then l.length else 0 := by
  have e : run k init (allAtOnce l) = run k (run k init (l.map .pick)) (l.map .queue) := by
    simp [run, allAtOnce, List.foldl_append]
  obtain ⟨h1, h2, h3⟩ := picks k l init
  obtain ⟨h4, _⟩ := queues k 0 l (run k init (l.map .pick)) hn (by
    intro t ht
    rw [h3 t, if_pos ht]
    show some (0 % k) = some 0
    rw [Nat.zero_mod])
  rw [e, h4, h2]
  funext w
  by_cases hw : w = 0
  · subst hw; simp [init]
  · simp [hw, init]

/-- **C267**: so with more than one worker and more than one such caller the share of some is missed. -/
theorem not_even (k : Nat) (hk : 1 < k) (l : List Nat) (hn : l.Nodup) (hl : 1 < l.length) :
    ¬ Even k l.length (run k init (allAtOnce l)).jobs := by
  intro h
  have := (h 0 (by omega)).2
  rw [one_worker k l hn] at this
  simp only [if_true] at this
  have h2 : (l.length + k - 1) / k < l.length := by
    rw [Nat.div_lt_iff_lt_mul (by omega)]
    obtain ⟨a, ha⟩ : ∃ a, l.length = a + 2 := ⟨l.length - 2, by omega⟩
    obtain ⟨b, rfl⟩ : ∃ b, k = b + 2 := ⟨k - 2, by omega⟩
    rw [ha]
    have : (a + 2) * (b + 2) = a * b + 2 * a + 2 * b + 4 := by ring
    omega
  omega

/-- **C267**: whatever the schedule, only workers that exist get jobs, and no job gets lost: the counter is the number of jobs. -/
theorem all_given (k : Nat) (hk : 0 < k) (l : List Ev) :
    (∀ w, k ≤ w → (run k init l).jobs w = 0) ∧
    (run k init l).count = ((List.range k).map (run k init l).jobs).sum := by
  have key : ∀ (l : List Ev) (s : St), (∀ t w, s.picked t = some w → w < k) → (∀ w, k ≤ w → s.jobs w = 0) →
      s.count = ((List.range k).map s.jobs).sum →
      (∀ w, k ≤ w → (run k s l).jobs w = 0) ∧ (run k s l).count = ((List.range k).map (run k s l).jobs).sum := by
    intro l
    induction l with
    | nil => exact fun s _ h1 h2 => ⟨h1, h2⟩
    | cons e l ih =>
      intro s h0 h1 h2
      cases e with
      | pick t =>
        refine ih (step k s (.pick t)) ?_ h1 h2
        intro u w hu
        by_cases e : u = t
        · subst e
          simp [step] at hu
          rw [← hu]
          exact Nat.mod_lt _ hk
        · simp only [step, Function.update_of_ne e] at hu
          exact h0 u w hu
      | queue t =>
        cases hp : s.picked t with
        | none =>
          have es : step k s (.queue t) = s := by simp [step, hp]
          have e : run k s (.queue t :: l) = run k s l := by
            show run k (step k s (.queue t)) l = _
            rw [es]
          rw [e]
          exact ih s h0 h1 h2
        | some w =>
          have hw := h0 t w hp
          have es : step k s (.queue t) =
              ⟨s.count + 1, Function.update s.picked t none, Function.update s.jobs w (s.jobs w + 1)⟩ := by
            simp [step, hp]
          have e : run k s (.queue t :: l) =
              run k ⟨s.count + 1, Function.update s.picked t none, Function.update s.jobs w (s.jobs w + 1)⟩ l := by
            show run k (step k s (.queue t)) l = _
            rw [es]
          rw [e]
          refine ih _ ?_ ?_ ?_
          · intro u v hu
            by_cases e : u = t
            · subst e; simp at hu
            · simp only [Function.update_of_ne e] at hu
              exact h0 u v hu
          · intro v hv
            have : v ≠ w := by omega
            simp only [Function.update_of_ne this]
            exact h1 v hv
          · show s.count + 1 = _
            rw [h2]
            simp only
            have gen : ∀ (r : List Nat), r.Nodup → w ∈ r →
                (r.map (Function.update s.jobs w (s.jobs w + 1))).sum = (r.map s.jobs).sum + 1 := by
              intro r
              induction r with
              | nil => intro _ h; simp at h
              | cons a r ihr =>
                intro hn hm
                rw [List.nodup_cons] at hn
                by_cases ha : a = w
                · subst ha
                  have : r.map (Function.update s.jobs a (s.jobs a + 1)) = r.map s.jobs :=
                    List.map_congr_left fun b hb => Function.update_of_ne (fun (e : b = a) => hn.1 (by rw [← e]; exact hb)) _ _
                  simp only [List.map_cons, List.sum_cons, Function.update_self, this]
                  omega
                · have hm' : w ∈ r := by
                    rcases List.mem_cons.1 hm with h | h
                    · exact absurd h.symm ha
                    · exact h
                  simp only [List.map_cons, List.sum_cons, Function.update_of_ne ha, ihr hn.2 hm']
                  omega
            rw [gen _ List.nodup_range (by simpa using hw)]
  refine key l init (fun _ _ h => by simp [init] at h) (fun _ _ => rfl) ?_
  have : ∀ r : List Nat, (r.map init.jobs).sum = 0 := by
    intro r
    induction r with
    | nil => rfl
    | cons a r ih =>
      rw [List.map_cons, List.sum_cons, ih]
      rfl
  exact (this _).symm

/-- Three workers, five calls one by one: 2, 2 and 1. -/
example : (List.range 3).map (run 3 init (oneByOne [0, 1, 0, 2, 0])).jobs = [2, 2, 1] := by decide
/-- Three workers, five callers at once: 5, 0 and 0. -/
example : (List.range 3).map (run 3 init (allAtOnce [0, 1, 2, 3, 4])).jobs = [5, 0, 0] := by decide

end Verif.Future.Spread
