import Verif.Sched.Timer

/-!
# Model of the rounds of the event loop: `events_once`, `events_execute` and `events_is_running`, src/events.c:647-655,
703-723 and 949-976

The descriptors, tasks and timeouts are modelled elsewhere (Fd, Sched.Loop, Wheel).  Here they only decide how long a round
waits.  The list of actors is a list sorted by the time they are due; that the linked list of the code is one is shown in
Sched.TimerProofs.  Times are nanoseconds of the clock read by `events_nsec`; the clock is not set back.
-/

namespace Verif.Sched.Once

/-- An actor in the list: which one, and `alarmtime`. -/
structure A where
  id : Nat
  due : Nat
  deriving DecidableEq

/-- What the world does in one round: whether there are tasks (`task_count`), after how long a watched descriptor is ready
(`none`: never), how long the callbacks and the kernel need beyond the wait, and the actors that the callback of the called
actor sets, itself included if it calls `events_repeat_actor`. -/
structure Env where
  tasks : Bool
  ready : Option Nat
  spent : Nat
  sets : List A

structure St where
  now : Nat
  queue : List A
  log : List (Nat × Nat)

inductive Out where
  | ub
  | forever
  | ret (s : St)

/-- The place of a new actor, src/events.c:893-902: before the first one that is due at the same time or later. -/
def ins (x : A) : List A → List A
  | [] => [x]
  | y :: r => if y.due < x.due then y :: ins x r else x :: y :: r

/-- The wait handed to the kernel in milliseconds, src/events.c:704-706, 957 and src/epoll.c:152-153.  `int` arithmetic:
overflow is undefined.  `active_io` is 0 here (it is only used on Windows). -/
def secs (maxWait res : Int) (tasks : Bool) : Int :=
  if tasks then 0 else if res < maxWait then res else maxWait

@[inherit_doc secs]
def waitMs (maxWait res : Int) (tasks : Bool) : Option Int :=
  if -2 ^ 31 ≤ secs maxWait res tasks * 1000 ∧ secs maxWait res tasks * 1000 < 2 ^ 31 then
    some (secs maxWait res tasks * 1000) else none

/-- How long `epoll_wait` waits: until a descriptor is ready or the time is over; a negative time never is. -/
def waits (ms : Int) : Option Nat → Option Nat
  | none => if ms < 0 then none else some (ms.toNat * 1000000)
  | some d => if ms < 0 then some d else some (min d (ms.toNat * 1000000))

/-- The actors, src/events.c:962-973: at most one is called. -/
def fire (sets : List A) (s : St) : St :=
  match s.queue with
  | [] => s
  | a :: r => if a.due ≤ s.now then { s with queue := sets.foldl (fun q x => ins x q) r, log := s.log ++ [(a.id, s.now)] } else s

/-- `events_once`, src/events.c:703-723.  A failing `epoll_wait` (the call returns -1) is left out. -/
def once (maxWait res : Int) (e : Env) (s : St) : Out :=
  match waitMs maxWait res e.tasks with
  | none => .ub
  | some ms =>
    match waits ms e.ready with
    | none => .forever
    | some d => .ret (fire e.sets { s with now := s.now + d + e.spent })

/-- Rounds in a row. -/
def rounds (maxWait res : Int) : List Env → St → Out
  | [], s => .ret s
  | e :: r, s =>
    match once maxWait res e s with
    | .ret s' => rounds maxWait res r s'
    | o => o

/-! ## Claim C204 -/

/-- An actor that is due later than `y` is put behind `y`, if those before `y` are not due later than `y`. -/
theorem ins_behind {x y : A} : ∀ (pre post : List A), y.due < x.due → (∀ z ∈ pre, z.due ≤ y.due) →
    ins x (pre ++ y :: post) = pre ++ y :: ins x post
  | [], post, h, _ => by simp [ins, h]
  | z :: r, post, h, hp => by
    have hz : z.due < x.due := by have := hp z (by simp); omega
    simp only [List.cons_append, ins, hz, if_true]
    rw [ins_behind r post h (fun w hw => hp w (by simp [hw]))]

theorem foldl_behind {y : A} : ∀ (sets pre post : List A), (∀ x ∈ sets, y.due < x.due) → (∀ z ∈ pre, z.due ≤ y.due) →
    ∃ post', sets.foldl (fun q x => ins x q) (pre ++ y :: post) = pre ++ y :: post'
  | [], _, post, _, _ => ⟨post, rfl⟩
  | x :: r, pre, post, h, hp => by
    simp only [List.foldl_cons]
    rw [ins_behind pre post (h x (by simp)) hp]
    exact foldl_behind r pre _ (fun w hw => h w (by simp [hw])) hp

theorem waits_le {ms : Int} {e : Option Nat} {d : Nat} (h0 : 0 ≤ ms) (h : waits ms e = some d) : d ≤ ms.toNat * 1000000 := by
  unfold waits at h
  have : ¬ ms < 0 := by omega
  cases e with
  | none => simp only [this, if_false, Option.some.injEq] at h; omega
  | some k => simp only [this, if_false, Option.some.injEq] at h; omega

theorem secs_range {w res : Int} (h0 : 0 ≤ w) (hr : 0 ≤ res) (b : Bool) : 0 ≤ secs w res b ∧ secs w res b ≤ w := by
  unfold secs
  cases b
  · simp only [Bool.false_eq_true, if_false]
    split <;> omega
  · simp only [if_true]; omega

theorem once_ret {w res : Int} {e : Env} {s s' : St} (h0 : 0 ≤ w) (hr : 0 ≤ res) (h : once w res e s = .ret s') :
    ∃ d, d ≤ w.toNat * 1000000000 ∧ s' = fire e.sets { s with now := s.now + d + e.spent } := by
  unfold once at h
  cases hm : waitMs w res e.tasks with
  | none => simp [hm] at h
  | some ms =>
    simp only [hm] at h
    cases hd : waits ms e.ready with
    | none => simp [hd] at h
    | some d =>
      simp only [hd, Out.ret.injEq] at h
      refine ⟨d, ?_, h.symm⟩
      obtain ⟨h1, h2⟩ := secs_range h0 hr e.tasks
      have h3 : ms = secs w res e.tasks * 1000 := by
        unfold waitMs at hm
        split at hm
        · exact (Option.some.inj hm).symm
        · exact absurd hm (by simp)
      have h4 := waits_le (by omega) hd
      have h5 : ms.toNat ≤ w.toNat * 1000 := by omega
      calc d ≤ ms.toNat * 1000000 := h4
        _ ≤ (w.toNat * 1000) * 1000000 := Nat.mul_le_mul_right _ h5
        _ = w.toNat * 1000000000 := by rw [Nat.mul_assoc]

/-- Claim C204 (what holds): an actor that has `k` actors before it is called once the clock is past the time it is due, and
less than `k + 1` rounds later, where a round takes at most `maxWait` seconds and what the callbacks need.  The callbacks of
other actors set none that are due before it. -/
theorem actor_in_time_partial (w res : Int) (B : Nat) (h0 : 0 ≤ w) (hr : 0 ≤ res) (a : A) :
    ∀ (es : List Env) (s s' : St) (pre post : List A), (∀ e ∈ es, e.spent ≤ B ∧ ∀ x ∈ e.sets, a.due < x.due) →
    s.queue = pre ++ a :: post → (∀ z ∈ pre, z.due ≤ a.due) → s.now < a.due → rounds w res es s = .ret s' →
    s'.now < a.due + (pre.length + 1) * (w.toNat * 1000000000 + B) ∧ a ∈ s'.queue ∨
    ∃ t, (a.id, t) ∈ s'.log ∧ a.due ≤ t ∧ t < a.due + (pre.length + 1) * (w.toNat * 1000000000 + B) := by
  intro es s s' pre post he hq hp hn
  generalize hD : w.toNat * 1000000000 + B = D
  have log_mono : ∀ (es : List Env) (s s' : St), rounds w res es s = .ret s' → ∀ x ∈ s.log, x ∈ s'.log := by
    intro es
    induction es with
    | nil => intro s s' h x hx; simp only [rounds, Out.ret.injEq] at h; subst h; exact hx
    | cons e r ih =>
      intro s s' h x hx
      simp only [rounds] at h
      cases ho : once w res e s with
      | ub => simp [ho] at h
      | forever => simp [ho] at h
      | ret s1 =>
        simp only [ho] at h
        refine ih s1 s' h x ?_
        obtain ⟨d, _, rfl⟩ := once_ret h0 hr ho
        unfold fire
        split
        · exact hx
        · split
          · simp [hx]
          · exact hx
  have key : ∀ (es : List Env) (s s' : St) (pre' : List A) (post : List A), (∀ e ∈ es, e.spent ≤ B ∧ ∀ x ∈ e.sets, a.due < x.due) →
      s.queue = pre' ++ a :: post → (∀ z ∈ pre', z.due ≤ a.due) → pre'.length ≤ pre.length →
      s.now < a.due + (pre.length - pre'.length) * D →
      rounds w res es s = .ret s' →
      s'.now < a.due + (pre.length + 1) * D ∧ a ∈ s'.queue ∨
      ∃ t, (a.id, t) ∈ s'.log ∧ a.due ≤ t ∧ t < a.due + (pre.length + 1) * D := by
    intro es
    induction es with
    | nil =>
      intro s s' pre' post _ hq _ hl hn h
      simp only [rounds, Out.ret.injEq] at h
      subst h
      refine Or.inl ⟨?_, by simp [hq]⟩
      have : (pre.length - pre'.length) * D ≤ (pre.length + 1) * D := Nat.mul_le_mul_right _ (by omega)
      omega
    | cons e r ih =>
      intro s s' pre' post he hq hp hl hn h
      simp only [rounds] at h
      cases ho : once w res e s with
      | ub => simp [ho] at h
      | forever => simp [ho] at h
      | ret s1 =>
        simp only [ho] at h
        obtain ⟨d, hd, hs1⟩ := once_ret h0 hr ho
        have hb := he e (by simp)
        have hstep : s.now + d + e.spent < a.due + (pre.length - pre'.length + 1) * D := by
          rw [Nat.add_mul]; omega
        cases pre' with
        | nil =>
          simp only [List.nil_append] at hq
          unfold fire at hs1
          simp only [hq] at hs1
          by_cases hdue : a.due ≤ s.now + d + e.spent
          · rw [if_pos hdue] at hs1
            refine Or.inr ⟨s.now + d + e.spent, log_mono r s1 s' h _ ?_, hdue, ?_⟩
            · subst hs1; simp
            · simpa using hstep
          · rw [if_neg hdue] at hs1
            refine ih s1 s' [] post (fun x hx => he x (by simp [hx])) (by subst hs1; simp) (by simp) (by simp) ?_ h
            subst hs1
            dsimp only
            omega
        | cons z q =>
          unfold fire at hs1
          simp only [hq, List.cons_append] at hs1
          by_cases hdue : z.due ≤ s.now + d + e.spent
          · rw [if_pos hdue] at hs1
            obtain ⟨post', hpost⟩ := foldl_behind e.sets q post hb.2 (fun x hx => hp x (by simp [hx]))
            simp only [List.length_cons] at hl hstep
            refine ih s1 s' q post' (fun x hx => he x (by simp [hx])) (by subst hs1; exact hpost)
              (fun x hx => hp x (by simp [hx])) (by omega) ?_ h
            subst hs1
            dsimp only
            have : pre.length - (q.length + 1) + 1 = pre.length - q.length := by omega
            rw [this] at hstep
            omega
          · rw [if_neg hdue] at hs1
            refine ih s1 s' (z :: q) post (fun x hx => he x (by simp [hx])) (by subst hs1; simp) hp hl ?_ h
            subst hs1
            dsimp only
            have := hp z (by simp)
            omega
  intro h
  exact key es s s' pre post he hq hp (Nat.le_refl _) (by omega) h

/-- Two actors, the second due after 2 s, rounds of at most 1 s: the hypotheses hold and it is called. -/
example : rounds 1 5 (List.replicate 2 ⟨false, none, 7, []⟩) ⟨0, [⟨1, 5⟩] ++ ⟨2, 1500000000⟩ :: [], []⟩ =
      .ret ⟨2000000014, [], [(1, 1000000007), (2, 2000000014)]⟩ ∧ ∀ z ∈ [(⟨1, 5⟩ : A)], z.due ≤ 1500000000 :=
  ⟨by simp [rounds, once, waitMs, secs, waits, fire], by simp⟩

/-- Against C204: while nothing else happens, every actor called costs a whole wait: those due at the beginning are called
one by one, `m` seconds apart, the first one after `m` seconds. -/
theorem actors_one_per_wait (m res : Int) (hm : 0 ≤ m) (hr : m ≤ res) (hi : m * 1000 < 2 ^ 31) :
    ∀ (n : Nat) (s : St), n ≤ s.queue.length → (∀ a ∈ s.queue, a.due ≤ s.now) →
    rounds m res (List.replicate n ⟨false, none, 0, []⟩) s =
      .ret ⟨s.now + n * (m.toNat * 1000000000), s.queue.drop n,
        s.log ++ (s.queue.take n).mapIdx fun i a => (a.id, s.now + (i + 1) * (m.toNat * 1000000000))⟩ := by
  have hw : ∀ s : St, once m res ⟨false, none, 0, []⟩ s = .ret (fire [] { s with now := s.now + m.toNat * 1000000000 }) := by
    intro s
    have h1 : secs m res false = m := by simp only [secs, Bool.false_eq_true, if_false]; split <;> omega
    have h2 : waitMs m res false = some (m * 1000) := by unfold waitMs; rw [h1, if_pos (by omega)]
    have h3 : waits (m * 1000) none = some (m.toNat * 1000000000) := by
      have h4 : (m * 1000).toNat * 1000000 = m.toNat * 1000000000 := by omega
      unfold waits; rw [if_neg (by omega), h4]
    simp [once, h2, h3]
  intro n
  induction n with
  | zero => intro s _ _; simp [rounds]
  | succ n ih =>
    intro s hl hd
    cases hq : s.queue with
    | nil => simp [hq] at hl
    | cons a r =>
      rw [hq] at hl hd
      have ha : a.due ≤ s.now + m.toNat * 1000000000 := by have := hd a (by simp); omega
      simp only [List.replicate_succ, rounds, hw, fire, hq, if_pos ha, List.foldl_nil]
      rw [ih _ (by simpa using hl) (fun b hb => by have := hd b (by simp [hb]); dsimp only; omega)]
      simp only [List.drop_succ_cons, List.take_succ_cons, List.mapIdx_cons, List.append_assoc, List.singleton_append,
        Out.ret.injEq, St.mk.injEq]
      refine ⟨by rw [Nat.add_mul]; omega, trivial, ?_⟩
      congr 1
      simp only [Nat.zero_add, Nat.one_mul, List.cons.injEq, true_and]
      congr 1
      funext i b
      rw [Nat.add_mul (i + 1) 1]; simp only [Prod.mk.injEq, true_and]; omega

example : rounds 2 5 (List.replicate 2 ⟨false, none, 0, []⟩) ⟨9, [⟨1, 5⟩, ⟨2, 9⟩], []⟩ =
    .ret ⟨4000000009, [], [(1, 2000000009), (2, 4000000009)]⟩ :=
  actors_one_per_wait 2 5 (by omega) (by omega) (by omega) 2 _ (by simp) (by simp)

/-- Against C204: with a negative wait a round ends only if a descriptor becomes ready, whatever actors are due. -/
theorem negative_wait_stalls (m res : Int) (hm : m < 0) (hi : -2 ^ 31 ≤ m * 1000) (hr : m ≤ res) (n : Nat) (l : List A) (s : St) :
    once m res ⟨false, none, n, l⟩ s = .forever := by
  have h1 : secs m res false = m := by simp only [secs, Bool.false_eq_true, if_false]; split <;> omega
  have h2 : waitMs m res false = some (m * 1000) := by unfold waitMs; rw [h1, if_pos (by omega)]
  have h3 : waits (m * 1000) none = none := by unfold waits; rw [if_pos (by omega)]
  simp [once, h2, h3]

example (s : St) : once (-1) 5 ⟨false, none, 0, []⟩ s = .forever := negative_wait_stalls _ _ (by omega) (by omega) (by omega) _ _ s

/-- While there are tasks a round does not wait, and the actor due first is called in this round. -/
theorem no_wait_with_tasks (m res : Int) (r : Option Nat) (n : Nat) (l : List A) (s : St) :
    once m res ⟨true, r, n, l⟩ s = .ret (fire l { s with now := s.now + n }) := by
  have h2 : waitMs m res true = some 0 := by simp [waitMs, secs]
  cases r <;> simp [once, h2, waits]

/-! ## Claim C205: the loop ends when every actor has been called -/

/-- `while (events_is_running(loop)) events_once(loop, maxWait)` when only actors are registered: the counter
`active_timers` is the length of the list (src/events.c:647-655).  `k` bounds the number of rounds. -/
def loopRun (maxWait res : Int) (env : Nat → Env) : Nat → Nat → St → Out
  | 0, _, s => .ret s
  | k + 1, i, s =>
    if s.queue = [] then .ret s
    else match once maxWait res (env i) s with
      | .ret s' => loopRun maxWait res env k (i + 1) s'
      | o => o

theorem once_returns {w res : Int} (h0 : 0 ≤ w) (hr : 0 ≤ res) (hi : w * 1000 < 2 ^ 31) (e : Env) (s : St) :
    ∃ d, once w res e s = .ret (fire e.sets { s with now := s.now + d + e.spent }) := by
  obtain ⟨h1, h2⟩ := secs_range h0 hr e.tasks
  have h3 : waitMs w res e.tasks = some (secs w res e.tasks * 1000) := by unfold waitMs; rw [if_pos (by omega)]
  have h4 : ¬ secs w res e.tasks * 1000 < 0 := by omega
  cases hrdy : e.ready with
  | none =>
    refine ⟨(secs w res e.tasks * 1000).toNat * 1000000, ?_⟩
    simp only [once, h3, hrdy, waits, h4, if_false]
  | some k =>
    refine ⟨min k ((secs w res e.tasks * 1000).toNat * 1000000), ?_⟩
    simp only [once, h3, hrdy, waits, h4, if_false]

/-- Claim C205 (first part): a loop whose actors set no further ones ends, whatever descriptors and tasks do, if the clock
goes on.  By then every actor has been called once, in the order in which they are due, and none before it was due. -/
theorem loop_calls_all (w res : Int) (env : Nat → Env) (h0 : 0 ≤ w) (hr : 0 ≤ res) (hi : w * 1000 < 2 ^ 31)
    (he : ∀ i, 0 < (env i).spent ∧ (env i).sets = []) (s : St) :
    ∃ k s' calls, loopRun w res env k 0 s = .ret s' ∧ s'.queue = [] ∧ s'.log = s.log ++ calls ∧
      List.Forall₂ (fun (a : A) (c : Nat × Nat) => c.1 = a.id ∧ a.due ≤ c.2) s.queue calls := by
  suffices H : ∀ (q : List A) (i : Nat) (s : St), s.queue = q →
      ∃ k s' calls, loopRun w res env k i s = .ret s' ∧ s'.queue = [] ∧ s'.log = s.log ++ calls ∧
        List.Forall₂ (fun (a : A) (c : Nat × Nat) => c.1 = a.id ∧ a.due ≤ c.2) q calls from H s.queue 0 s rfl
  intro q
  induction q with
  | nil => intro i s hq; exact ⟨0, s, [], rfl, hq, by simp, .nil⟩
  | cons a r ih =>
    intro i s hq
    suffices H : ∀ (n i : Nat) (s : St), s.queue = a :: r → a.due - s.now ≤ n →
        ∃ k s' calls, loopRun w res env k i s = .ret s' ∧ s'.queue = [] ∧ s'.log = s.log ++ calls ∧
          List.Forall₂ (fun (a : A) (c : Nat × Nat) => c.1 = a.id ∧ a.due ≤ c.2) (a :: r) calls from
      H _ i s hq (Nat.le_refl _)
    intro n
    induction n with
    | zero =>
      intro i s hq hn
      obtain ⟨d, hd⟩ := once_returns h0 hr hi (env i) s
      have hdue : a.due ≤ s.now + d + (env i).spent := by omega
      simp only [fire, hq, if_pos hdue, (he i).2, List.foldl_nil] at hd
      obtain ⟨k, s', calls, h1, h2, h3, h4⟩ := ih (i + 1) _ (by rfl : (⟨s.now + d + (env i).spent, r, s.log ++ [(a.id, s.now + d + (env i).spent)]⟩ : St).queue = r)
      refine ⟨k + 1, s', (a.id, s.now + d + (env i).spent) :: calls, ?_, h2, by simp [h3], .cons ⟨rfl, hdue⟩ h4⟩
      simp only [loopRun, hq, hd, h1]
      simp
    | succ n ihn =>
      intro i s hq hn
      obtain ⟨d, hd⟩ := once_returns h0 hr hi (env i) s
      by_cases hdue : a.due ≤ s.now + d + (env i).spent
      · simp only [fire, hq, if_pos hdue, (he i).2, List.foldl_nil] at hd
        obtain ⟨k, s', calls, h1, h2, h3, h4⟩ := ih (i + 1) _ (by rfl : (⟨s.now + d + (env i).spent, r, s.log ++ [(a.id, s.now + d + (env i).spent)]⟩ : St).queue = r)
        refine ⟨k + 1, s', (a.id, s.now + d + (env i).spent) :: calls, ?_, h2, by simp [h3], .cons ⟨rfl, hdue⟩ h4⟩
        simp only [loopRun, hq, hd, h1]
        simp
      · simp only [fire, hq, if_neg hdue] at hd
        have hsp := (he i).1
        obtain ⟨k, s', calls, h1, h2, h3, h4⟩ := ihn (i + 1) ⟨s.now + d + (env i).spent, a :: r, s.log⟩ rfl (by dsimp only; omega)
        refine ⟨k + 1, s', calls, ?_, h2, h3, h4⟩
        simp only [loopRun, hq, hd, h1]
        simp

example : ∃ k s' calls, loopRun 1 5 (fun i => ⟨i % 2 == 0, some i, 3, []⟩) k 0 ⟨0, [⟨1, 5⟩, ⟨2, 9⟩], []⟩ = .ret s' ∧
    s'.queue = [] ∧ s'.log = [] ++ calls ∧
    List.Forall₂ (fun (a : A) (c : Nat × Nat) => c.1 = a.id ∧ a.due ≤ c.2) [⟨1, 5⟩, ⟨2, 9⟩] calls :=
  loop_calls_all 1 5 _ (by omega) (by omega) (by omega) (fun _ => ⟨by simp, rfl⟩) _

/-! ## Claim C206: what keeps a loop running -/

/-- The loops of a thread.  `mine` is `__thrd()->loop`; the counters are those of src/events_internal.h:310-328. -/
structure L where
  descs : Nat
  io : Nat
  timers : Nat
  signals : Nat

structure Th where
  loops : Nat → Option L
  mine : Option Nat
  tasks : Nat
  stopped : Bool

/-- `events_is_running`, src/events.c:647-655.  `stopped`: `events_shutdown_set || events_got_signal`.  The counters are
cast to `int`; fewer than 2^31 are registered.  `none`: a destroyed loop is looked at (only if the flags do not decide). -/
def isRunning (t : Th) (l : Nat) : Option Bool :=
  if t.stopped || t.mine.isNone then some false
  else (t.loops l).map fun x => decide (0 < x.descs ∨ 0 < x.timers ∨ 0 < x.io ∨ 0 < x.signals ∨ 0 < t.tasks)

/-- The result of `events_once`, src/events.c:722. -/
def onceRet (x : L) : Nat := x.descs + x.timers + x.io

/-- `events_create` and `events_destroy` as far as `__thrd()->loop` is concerned, src/events.c:761-762 and
src/epoll.c:78-89. -/
def create (l : Nat) (t : Th) : Th :=
  { t with loops := Function.update t.loops l (some ⟨0, 0, 0, 0⟩), mine := if t.mine.isNone then some l else t.mine }

@[inherit_doc create]
def destroy (l : Nat) (t : Th) : Th :=
  { t with loops := Function.update t.loops l none, mine := none }

/-- Claim C206 (what holds): on a thread that has not destroyed a loop, and while the program is not being stopped, a loop
is running exactly while something is registered with it or the thread has tasks; without signals and tasks this is the
case exactly if `events_once` returned a positive number. -/
theorem running_iff_partial (t : Th) (l : Nat) (x : L) (hx : t.loops l = some x) (hs : t.stopped = false)
    (hm : t.mine.isSome = true) :
    (isRunning t l = some true ↔ 0 < x.descs ∨ 0 < x.timers ∨ 0 < x.io ∨ 0 < x.signals ∨ 0 < t.tasks) ∧
    (x.signals = 0 → t.tasks = 0 → (isRunning t l = some true ↔ 0 < onceRet x)) := by
  have h : isRunning t l = some (decide (0 < x.descs ∨ 0 < x.timers ∨ 0 < x.io ∨ 0 < x.signals ∨ 0 < t.tasks)) := by
    unfold isRunning
    cases hmi : t.mine with
    | none => simp [hmi] at hm
    | some k => simp [hs, hx]
  refine ⟨by rw [h]; simp, fun h1 h2 => ?_⟩
  rw [h, h1, h2]
  simp only [onceRet, Option.some.injEq, decide_eq_true_eq]
  omega

/-- Against C206: a loop that only waits for signals is running, but `events_once` returns 0 active events. -/
theorem signals_not_counted (t : Th) (l n : Nat) (hx : t.loops l = some ⟨0, 0, 0, n + 1⟩) (hs : t.stopped = false)
    (hm : t.mine.isSome = true) : isRunning t l = some true ∧ onceRet ⟨0, 0, 0, n + 1⟩ = 0 := by
  refine ⟨(running_iff_partial t l _ hx hs hm).1.2 (by simp), rfl⟩

/-- Against C206: destroying one loop of a thread stops the others, whatever is registered with them. -/
theorem destroy_stops_others (t : Th) (k l : Nat) : isRunning (destroy k t) l = some false := by
  simp [isRunning, destroy]

/-- A thread with two loops, one with a descriptor. -/
def two : Th :=
  { loops := fun l => if l = 1 then some ⟨1, 0, 0, 0⟩ else if l = 2 then some ⟨0, 0, 0, 1⟩ else none, mine := some 1, tasks := 0, stopped := false }

example : isRunning two 1 = some true ∧ isRunning two 2 = some true ∧ isRunning (destroy 2 two) 1 = some false :=
  ⟨(running_iff_partial two 1 _ rfl rfl rfl).1.2 (by simp), (signals_not_counted two 2 0 rfl rfl rfl).1, destroy_stops_others _ _ _⟩

end Verif.Sched.Once
