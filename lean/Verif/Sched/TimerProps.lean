import Verif.Sched.Timer
import Verif.Sched.QueueProps

/-!
# C30, C31: actors (timers)
-/

namespace Verif.Sched

/-! ### specification -/

/-- `pending`: armed actors with their deadline, by deadline.  `armed`: every arming ever.  `fired`: every call, with
the deadline it was armed for and the clock value of the poll.  `rep`: which actors are marked as repeating.  `stuck`: actors
that were called, are still marked as repeating and were not armed again. -/
structure AT where
  pending : List (Id × Nat)
  armed : List (Id × Nat)
  fired : List (Id × Nat × Nat)
  rep : Id → Bool
  stuck : List Id
  used : List Id

def AT.init : AT := ⟨[], [], [], fun _ => false, [], []⟩

def AT.arm (a : AT) (t : Id) (ms : Int) (now : Nat) : AT :=
  { a with
    pending := a.pending.orderedInsert (fun x y => x.2 ≤ y.2) (t, now + ms.toNat * 1000000)
    armed := a.armed ++ [(t, now + ms.toNat * 1000000)] }

/-- Durations for which the code is defined and right. -/
def goodMs (ms : Int) (now : Nat) : Prop := 0 ≤ ms ∧ ms ≤ 2147 ∧ now + ms.toNat * 1000000 < 2 ^ 64

instance (ms : Int) (now : Nat) : Decidable (goodMs ms now) := by unfold goodMs; infer_instance

/-- A new actor is set; its identity is new. -/
def AT.set (a : AT) (t : Id) (ms : Int) (now : Nat) : Option AT :=
  if t ∉ a.used ∧ goodMs ms now then
    some (({ a with rep := Function.update a.rep t false, used := t :: a.used } : AT).arm t ms now)
  else none

/-- What the callback of `t` does.  Arming again twice, and clearing after arming again, are not allowed. -/
def specCb (t : Id) : AT → List CbOp → Option AT
  | a, [] => some a
  | a, .again ms now :: r =>
    if t ∉ a.pending.map (·.1) ∧ goodMs ms now then
      specCb t (({ a with rep := Function.update a.rep t true } : AT).arm t ms now) r
    else none
  | a, .clear :: r =>
    if t ∉ a.pending.map (·.1) then specCb t { a with rep := Function.update a.rep t false } r else none
  | a, .set t' ms now :: r => (a.set t' ms now).bind fun a => specCb t a r

/-- After the callback: an actor marked as repeating that was not armed again is stuck. -/
def AT.after (t : Id) (a : AT) : AT :=
  if a.rep t ∧ t ∉ a.pending.map (·.1) then { a with stuck := t :: a.stuck } else a

/-- A poll: the actor with the earliest deadline is called, if that deadline has been reached. -/
def AT.poll (a : AT) (now : Nat) (cb : List CbOp) : Option AT :=
  match a.pending with
  | [] => some a
  | p :: rest =>
    if p.2 ≤ now then
      (specCb p.1 { a with pending := rest, fired := a.fired ++ [(p.1, p.2, now)] } cb).map (AT.after p.1)
    else some a

inductive TOp where
  | set (t : Id) (ms : Int) (now : Nat)
  | poll (now : Nat) (cb : List CbOp)
  | clear (t : Id)           -- events_clear_actor from outside, on a pending actor
  deriving DecidableEq

def specT (a : AT) : TOp → Option AT
  | .set t ms now => a.set t ms now
  | .poll now cb => a.poll now cb
  | .clear t => if t ∈ a.pending.map (·.1) then some { a with rep := Function.update a.rep t false } else none

def specTs (a : AT) : List TOp → Option AT
  | [] => some a
  | op :: ops => (specT a op).bind fun a => specTs a ops

def implT (s : TS) : TOp → Option TS
  | .set t ms now => setActor s t ms now
  | .poll now cb => pollTimers s now cb
  | .clear t => clearActor s t

def implTs (s : TS) : List TOp → Option TS
  | [] => some s
  | op :: ops => (implT s op).bind fun s => implTs s ops

/-! ### invariant.  `extra` counts the actor being called, which is on no list. -/

structure TInv (extra : Nat) (s : TS) (a : AT) : Prop where
  rep : Rep s.list (a.pending.map (·.1))
  alarm : ∀ p ∈ a.pending, s.alarm p.1 = p.2
  repeating : s.repeating = a.rep
  live : ∀ p ∈ a.pending, s.live p.1 = true
  active : s.active = a.pending.length + a.stuck.length + extra
  log : s.log = a.fired.map (fun f => (f.1, f.2.2))
  fuel : a.pending.length < s.fuel
  used : ∀ p ∈ a.pending, p.1 ∈ a.used
  sorted : a.pending.Pairwise (fun x y => x.2 ≤ y.2)
  perm : a.armed.Perm (a.fired.map (fun f => (f.1, f.2.1)) ++ a.pending)
  early : ∀ f ∈ a.fired, f.2.1 ≤ f.2.2

theorem deadline_good {ms : Int} {now : Nat} (h : goodMs ms now) :
    actorDeadline now ms = some (now + ms.toNat * 1000000) := by
  obtain ⟨h1, h2, h3⟩ := h
  unfold actorDeadline
  obtain ⟨k, rfl⟩ := Int.eq_ofNat_of_zero_le h1
  rw [if_pos ⟨by omega, by omega⟩]
  congr 1
  simp only [Int.toNat_natCast] at h3 ⊢
  have : ((now : Int) + (k : Int) * 1000000) % 2 ^ 64 = ((now + k * 1000000 : Nat) : Int) := by
    rw [Int.emod_eq_of_lt (by omega) (by omega)]
    push_cast; ring
  rw [this, Int.toNat_natCast]

theorem arm_inv {e : Nat} {s : TS} {a : AT} (h : TInv e s a) {t : Id} {ms : Int} {now : Nat}
    (ht : t ∉ a.pending.map (·.1)) (hl : s.live t = true) (hu : t ∈ a.used) (hg : goodMs ms now) :
    ∃ s', armActor s t ms now = some s' ∧ s'.active = s.active + 1 ∧ s'.live = s.live ∧ s'.repeating = s.repeating ∧
      (∀ e' : Nat, s'.active = a.pending.length + 1 + a.stuck.length + e' → TInv e' s' (a.arm t ms now)) := by
  obtain ⟨W, hW⟩ : ∃ W, W = now + ms.toNat * 1000000 := ⟨_, rfl⟩
  unfold armActor
  rw [deadline_good hg, ← hW, Option.bind_some]
  have harm : a.arm t ms now = { a with pending := a.pending.orderedInsert (fun x y => x.2 ≤ y.2) (t, W),
                                        armed := a.armed ++ [(t, W)] } := by rw [hW]; rfl
  rw [harm]
  obtain ⟨L, hL⟩ : ∃ L, L = a.pending := ⟨_, rfl⟩
  have hperm := List.perm_orderedInsert (fun x y : Id × Nat => x.2 ≤ y.2) (t, W) L
  have hsort : (L.orderedInsert (fun x y => x.2 ≤ y.2) (t, W)).Pairwise (fun x y => x.2 ≤ y.2) := by
    have : Std.Total (fun x y : Id × Nat => x.2 ≤ y.2) := ⟨fun x y => Nat.le_total _ _⟩
    have : IsTrans (Id × Nat) (fun x y => x.2 ≤ y.2) := ⟨fun x y z => Nat.le_trans⟩
    exact (hL ▸ h.sorted).orderedInsert _ _
  obtain ⟨A, hA⟩ : ∃ A, A = L.takeWhile (fun b => decide ¬(W ≤ b.2)) := ⟨_, rfl⟩
  obtain ⟨B, hB⟩ : ∃ B, B = L.dropWhile (fun b => decide ¬(W ≤ b.2)) := ⟨_, rfl⟩
  have hAB : L = A ++ B := by rw [hA, hB, List.takeWhile_append_dropWhile]
  have hoi : L.orderedInsert (fun x y => x.2 ≤ y.2) (t, W) = A ++ (t, W) :: B := by
    rw [List.orderedInsert_eq_take_drop, hA, hB]
  have hslot : ((L.map (·.1)).dropWhile fun t => s.alarm t < W) = B.map (·.1) := by
    rw [List.dropWhile_map, hB]
    congr 1
    have : ∀ (M : List (Id × Nat)), (∀ p ∈ M, s.alarm p.1 = p.2) →
        M.dropWhile ((fun t => decide (s.alarm t < W)) ∘ fun x => x.1) = M.dropWhile (fun b => decide ¬(W ≤ b.2)) := by
      intro M
      induction M with
      | nil => intro _; rfl
      | cons p M ih =>
        intro hM
        rw [List.dropWhile_cons, List.dropWhile_cons, ih (fun q hq => hM q (by simp [hq]))]
        simp [hM p (by simp)]
    exact this L (hL ▸ h.alarm)
  have hrep := h.rep
  rw [← hL] at hrep ht ⊢
  have hfs : findSlot s.list.mem s.alarm s.fuel s.list.head W = some (B.map (·.1)).head? := by
    have hfu := h.fuel
    rw [← hL] at hfu
    have := findSlot_seg (alarm := s.alarm) (w := W) (fuel := s.fuel) hrep.seg (by simpa using hfu)
    rw [hslot] at this
    rw [← this, ← hrep.head]
  have hsq' : Rep s.list (A.map (·.1) ++ B.map (·.1)) := by rw [← List.map_append, ← hAB]; exact hrep
  have ht' : t ∉ A.map (·.1) ++ B.map (·.1) := by rw [← List.map_append, ← hAB]; exact ht
  have hins := insertAt_rep hsq' ht'
  rw [hfs]
  refine ⟨_, rfl, rfl, rfl, rfl, fun e' he => ?_⟩
  rw [hoi] at hperm hsort ⊢
  have hmem : ∀ p, p ∈ A ++ (t, W) :: B → p = (t, W) ∨ p ∈ a.pending := by
    intro p hp; rw [← hL, hAB]; simp only [List.mem_append, List.mem_cons] at hp ⊢; tauto
  refine ⟨?_, ?_, h.repeating, ?_, ?_, h.log, ?_, ?_, hsort, ?_, h.early⟩
  · show Rep _ ((A ++ (t, W) :: B).map _)
    rw [List.map_append, List.map_cons]; exact hins
  · intro p hp
    rcases hmem p hp with rfl | hp
    · simp
    · show Function.update s.alarm t W p.1 = _
      rw [Function.update_of_ne]
      · exact h.alarm p hp
      · intro e; exact ht (e ▸ List.mem_map_of_mem (hL ▸ hp))
  · intro p hp
    rcases hmem p hp with rfl | hp
    · exact hl
    · exact h.live p hp
  · rw [he]
    show _ = ((A ++ (t, W) :: B).length : Int) + _ + _
    rw [hAB]; simp; omega
  · show (A ++ (t, W) :: B).length < s.fuel + 1
    have := h.fuel
    rw [← hL, hAB] at this
    simp at this ⊢; omega
  · intro p hp
    rcases hmem p hp with rfl | hp
    · exact hu
    · exact h.used p hp
  · have h1 := h.perm
    rw [← hL] at h1
    show (a.armed ++ [(t, W)]).Perm (_ ++ (A ++ (t, W) :: B))
    refine (h1.append_right _).trans ?_
    rw [List.append_assoc]
    refine List.Perm.append_left _ ?_
    exact (List.perm_append_comm).trans (by simpa using hperm.symm)

theorem set_inv {e : Nat} {s : TS} {a a' : AT} (h : TInv e s a) {t : Id} {ms : Int} {now : Nat}
    (hs : a.set t ms now = some a') : ∃ s', setActor s t ms now = some s' ∧ TInv e s' a' ∧
      (∀ x, s.live x = true → s'.live x = true) ∧ (∀ x ∈ a.used, x ∈ a'.used ∧ (x ∈ a'.pending.map (·.1) ↔ x ∈ a.pending.map (·.1))) := by
  unfold AT.set at hs
  split at hs
  · rename_i hc
    simp only [Option.some.injEq] at hs
    subst hs
    have ht : t ∉ a.pending.map (·.1) := by
      intro hm
      obtain ⟨p, hp, e⟩ := List.mem_map.1 hm
      exact hc.1 (e ▸ h.used p hp)
    have h' : TInv e { s with live := Function.update s.live t true, repeating := Function.update s.repeating t false }
        { a with rep := Function.update a.rep t false, used := t :: a.used } := by
      refine ⟨h.rep, h.alarm, ?_, ?_, h.active, h.log, h.fuel, fun p hp => by simp [h.used p hp], h.sorted, h.perm, h.early⟩
      · show Function.update s.repeating t false = Function.update a.rep t false
        rw [h.repeating]
      · intro p hp
        show Function.update s.live t true p.1 = true
        rw [Function.update_of_ne]
        · exact h.live p hp
        · intro e; exact ht (e ▸ List.mem_map_of_mem hp)
    obtain ⟨s', e1, e2, e3, e4, e5⟩ := arm_inv h' (ms := ms) (now := now) ht (by simp) (by simp) hc.2
    refine ⟨s', e1, e5 e ?_, ?_, ?_⟩
    · rw [e2]
      have := h.active
      show s.active + 1 = _
      rw [this]; ring
    · intro x hx
      rw [e3]
      show Function.update s.live t true x = true
      by_cases hxt : x = t
      · subst hxt; simp
      · rw [Function.update_of_ne hxt]; exact hx
    · intro x hx
      refine ⟨by simp [AT.arm, hx], ?_⟩
      have hne : x ≠ t := by rintro rfl; exact hc.1 hx
      simp only [AT.arm, List.mem_map, List.mem_orderedInsert]
      constructor
      · rintro ⟨p, rfl | hp, rfl⟩
        · exact absurd rfl hne
        · exact ⟨p, hp, rfl⟩
      · rintro ⟨p, hp, rfl⟩; exact ⟨p, Or.inr hp, rfl⟩
  · simp at hs

/-- During the callback of `t`: the actor counts as one extra unless it has been armed again. -/
theorem cb_inv {t : Id} : ∀ {cb : List CbOp} {s : TS} {a a' : AT}, TInv (if t ∈ a.pending.map (·.1) then 0 else 1) s a →
    s.live t = true → t ∈ a.used → (t ∈ a.pending.map (·.1) → a.rep t = true) →
    specCb t a cb = some a' →
    ∃ s', runCb t s cb = some s' ∧ TInv (if t ∈ a'.pending.map (·.1) then 0 else 1) s' a' ∧ s'.live t = true ∧
      (t ∈ a'.pending.map (·.1) → a'.rep t = true) ∧ t ∈ a'.used
  | [], s, a, a', h, hl, hu, hr, hs => by
    simp only [specCb, Option.some.injEq] at hs
    subst hs
    exact ⟨s, rfl, h, hl, hr, hu⟩
  | .again ms now :: cb, s, a, a', h, hl, hu, hr, hs => by
    simp only [specCb] at hs
    split at hs
    · rename_i hc
      rw [if_neg hc.1] at h
      have h' : TInv 1 { s with repeating := Function.update s.repeating t true, active := s.active - 1 + 1 }
          { a with rep := Function.update a.rep t true } :=
        ⟨h.rep, h.alarm, by show Function.update s.repeating t true = _; rw [h.repeating], h.live,
          by have := h.active; show s.active - 1 + 1 = _; rw [this]; ring, h.log, h.fuel, h.used, h.sorted, h.perm, h.early⟩
      obtain ⟨s', e1, e2, e3, e4, e5⟩ := arm_inv h' (ms := ms) (now := now) hc.1 hl hu hc.2
      have hin : t ∈ (({ a with rep := Function.update a.rep t true } : AT).arm t ms now).pending.map (·.1) := by
        simp only [AT.arm, List.mem_map, List.mem_orderedInsert]
        exact ⟨_, Or.inl rfl, rfl⟩
      -- the code decrements before arming
      obtain ⟨w, hw⟩ : ∃ w, actorDeadline now ms = some w := ⟨_, deadline_good hc.2⟩
      have e1' : armActor { s with repeating := Function.update s.repeating t true, active := s.active - 1 } t ms now =
          some { s' with active := s'.active - 1 } := by
        unfold armActor at e1 ⊢
        rw [hw, Option.bind_some] at e1 ⊢
        rw [Option.map_eq_some_iff] at e1 ⊢
        obtain ⟨pos, p1, p2⟩ := e1
        refine ⟨pos, p1, ?_⟩
        rw [← p2]
        simp
      have hinv : TInv 0 { s' with active := s'.active - 1 } (({ a with rep := Function.update a.rep t true } : AT).arm t ms now) := by
        have hact : s'.active = a.pending.length + 1 + a.stuck.length + 1 := by
          rw [e2]; have := h.active; show s.active - 1 + 1 + 1 = _; rw [this]; push_cast; ring
        have := e5 1 hact
        exact ⟨this.rep, this.alarm, this.repeating, this.live, by
          have := this.active
          show s'.active - 1 = _
          rw [this]; push_cast; ring, this.log, this.fuel, this.used, this.sorted, this.perm, this.early⟩
      obtain ⟨s2, f1, f2⟩ := cb_inv (t := t) (cb := cb) (s := { s' with active := s'.active - 1 }) (by rw [if_pos hin]; exact hinv)
        (by show s'.live t = true; rw [e3]; exact hl) (by exact hu) (fun _ => by simp [AT.arm]) hs
      refine ⟨s2, ?_, f2⟩
      simp only [runCb, repeatActor, hl, if_true, e1', Option.bind_some, f1]
    · simp at hs
  | .clear :: cb, s, a, a', h, hl, hu, hr, hs => by
    simp only [specCb] at hs
    split at hs
    · rename_i hc
      have h' : TInv (if t ∈ a.pending.map (·.1) then 0 else 1) { s with repeating := Function.update s.repeating t false }
          { a with rep := Function.update a.rep t false } :=
        ⟨h.rep, h.alarm, by show Function.update s.repeating t false = _; rw [h.repeating], h.live, h.active, h.log, h.fuel,
          h.used, h.sorted, h.perm, h.early⟩
      obtain ⟨s2, f1, f2⟩ := cb_inv (t := t) (a := { a with rep := Function.update a.rep t false }) h' hl hu (fun hm => absurd hm hc) hs
      refine ⟨s2, ?_, f2⟩
      simp only [runCb, clearActor, hl, if_true, Option.bind_some, f1]
    · simp at hs
  | .set t' ms now :: cb, s, a, a', h, hl, hu, hr, hs => by
    simp only [specCb, Option.bind_eq_some_iff] at hs
    obtain ⟨a1, h1, h2⟩ := hs
    obtain ⟨s1, g1, g2, g3, g4⟩ := set_inv h h1
    have hrep : t ∈ a1.pending.map (·.1) → a1.rep t = true := by
      intro hm
      have hm' := (g4 t hu).2.1 hm
      have := hr hm'
      unfold AT.set at h1
      split at h1
      · rename_i hc
        simp only [Option.some.injEq] at h1
        subst h1
        show Function.update a.rep t' false t = true
        rw [Function.update_of_ne]
        · exact this
        · rintro rfl; exact hc.1 hu
      · simp at h1
    have he : (if t ∈ a1.pending.map (·.1) then 0 else 1) = (if t ∈ a.pending.map (·.1) then 0 else 1) := by
      simp only [(g4 t hu).2]
    obtain ⟨s2, f1, f2⟩ := cb_inv (t := t) (by rw [he]; exact g2) (g3 t hl) (g4 t hu).1 hrep h2
    refine ⟨s2, ?_, f2⟩
    simp only [runCb, g1, Option.bind_some, f1]

theorem poll_inv {s : TS} {a a' : AT} (h : TInv 0 s a) {now : Nat} {cb : List CbOp} (hs : a.poll now cb = some a') :
    ∃ s', pollTimers s now cb = some s' ∧ TInv 0 s' a' := by
  unfold AT.poll at hs
  split at hs
  · rename_i hp
    simp only [Option.some.injEq] at hs
    subst hs
    have : s.list.head = none := by rw [h.rep.head, hp]; rfl
    exact ⟨s, by simp [pollTimers, this], h⟩
  · rename_i p rest hp
    have hh : s.list.head = some p.1 := by rw [h.rep.head, hp]; rfl
    have ha : s.alarm p.1 = p.2 := h.alarm p (by rw [hp]; simp)
    have hl : s.live p.1 = true := h.live p (by rw [hp]; simp)
    have hu : p.1 ∈ a.used := h.used p (by rw [hp]; simp)
    unfold pollTimers
    simp only [hh, hl, if_true, ha]
    split at hs
    · rename_i hd
      rw [if_pos hd]
      rw [Option.map_eq_some_iff] at hs
      obtain ⟨a1, h1, h2⟩ := hs
      have hnd := h.rep.nodup
      rw [hp] at hnd
      simp only [List.map_cons, List.nodup_cons] at hnd
      have hst := h.sorted
      rw [hp, List.pairwise_cons] at hst
      have h0 : TInv (if p.1 ∈ rest.map (·.1) then 0 else 1)
          { s with list := dequeue s.list p.1, log := s.log ++ [(p.1, now)] }
          { a with pending := rest, fired := a.fired ++ [(p.1, p.2, now)] } := by
        rw [if_neg hnd.1]
        have hsub : ∀ q ∈ rest, q ∈ a.pending := fun q hq => by rw [hp]; simp [hq]
        refine ⟨?_, fun q hq => h.alarm q (hsub q hq), h.repeating, fun q hq => h.live q (hsub q hq), ?_, ?_, ?_,
          fun q hq => h.used q (hsub q hq), hst.2, ?_, ?_⟩
        · have := h.rep
          rw [hp, List.map_cons] at this
          exact dequeue_rep (a := []) this
        · have := h.active
          rw [hp] at this
          show s.active = _
          rw [this]; simp; ring
        · show s.log ++ _ = _
          rw [h.log]; simp
        · have := h.fuel
          rw [hp] at this
          simp at this
          show rest.length < s.fuel
          omega
        · have := h.perm
          rw [hp] at this
          simpa using this
        · intro f hf
          simp only [List.mem_append, List.mem_singleton] at hf
          rcases hf with hf | rfl
          · exact h.early f hf
          · exact hd
      obtain ⟨s1, f1, f2, f3, f4, f5⟩ := cb_inv (t := p.1)
        (a := { a with pending := rest, fired := a.fired ++ [(p.1, p.2, now)] }) h0 hl hu (fun hm => absurd hm hnd.1) h1
      rw [f1, Option.map_some]
      refine ⟨_, rfl, ?_⟩
      subst h2
      unfold AT.after
      by_cases hr : a1.rep p.1 = true
      · have hr' : s1.repeating p.1 = true := by rw [f2.repeating]; exact hr
        rw [if_pos hr']
        by_cases hpd : p.1 ∈ a1.pending.map (·.1)
        · rw [if_neg (by tauto)]
          rw [if_pos hpd] at f2
          exact f2
        · rw [if_pos ⟨hr, hpd⟩]
          rw [if_neg hpd] at f2
          exact ⟨f2.rep, f2.alarm, f2.repeating, f2.live, by
            have := f2.active
            rw [this]; simp; ring, f2.log, f2.fuel, f2.used, f2.sorted, f2.perm, f2.early⟩
      · have hr' : ¬ s1.repeating p.1 = true := by rw [f2.repeating]; exact hr
        have hpd : p.1 ∉ a1.pending.map (·.1) := fun hm => hr (f4 hm)
        rw [if_neg hr', if_neg (by tauto)]
        rw [if_neg hpd] at f2
        refine ⟨f2.rep, f2.alarm, f2.repeating, ?_, ?_, f2.log, f2.fuel, f2.used, f2.sorted, f2.perm, f2.early⟩
        · intro q hq
          show Function.update s1.live p.1 false q.1 = true
          rw [Function.update_of_ne]
          · exact f2.live q hq
          · intro e; exact hpd (e ▸ List.mem_map_of_mem hq)
        · have := f2.active
          show s1.active - 1 = _
          rw [this]; simp
    · rename_i hd
      rw [if_neg hd]
      simp only [Option.some.injEq] at hs
      subst hs
      exact ⟨s, rfl, h⟩

theorem timer_step {s : TS} {a a' : AT} {op : TOp} (h : TInv 0 s a) (hs : specT a op = some a') :
    ∃ s', implT s op = some s' ∧ TInv 0 s' a' := by
  cases op with
  | set t ms now =>
    obtain ⟨s', e1, e2, _⟩ := set_inv h hs
    exact ⟨s', e1, e2⟩
  | poll now cb => exact poll_inv h hs
  | clear t =>
    simp only [specT] at hs
    split at hs
    · rename_i hc
      simp only [Option.some.injEq] at hs
      subst hs
      obtain ⟨p, hp, e⟩ := List.mem_map.1 hc
      have hl : s.live t = true := e ▸ h.live p hp
      refine ⟨{ s with repeating := Function.update s.repeating t false }, by simp [implT, clearActor, hl], ?_⟩
      exact ⟨h.rep, h.alarm, by show Function.update s.repeating t false = _; rw [h.repeating], h.live, h.active, h.log,
        h.fuel, h.used, h.sorted, h.perm, h.early⟩
    · simp at hs

theorem timer_init (mem : Id → Links) (alarm : Id → Nat) : TInv 0 (TS.init mem alarm) AT.init :=
  ⟨empty_rep mem, by simp [AT.init], rfl, by simp [AT.init], by simp [AT.init, TS.init], by simp [AT.init, TS.init],
    by simp [AT.init, TS.init], by simp [AT.init], by simp [AT.init], by simp [AT.init], by simp [AT.init]⟩

theorem timer_run {ops : List TOp} : ∀ {s : TS} {a a' : AT}, TInv 0 s a → specTs a ops = some a' →
    ∃ s', implTs s ops = some s' ∧ TInv 0 s' a' := by
  induction ops with
  | nil =>
    intro s a a' h hs
    simp only [specTs, Option.some.injEq] at hs
    subst hs
    exact ⟨s, rfl, h⟩
  | cons op ops ih =>
    intro s a a' h hs
    simp only [specTs, Option.bind_eq_some_iff] at hs
    obtain ⟨a1, h1, h2⟩ := hs
    obtain ⟨s1, e1, e2⟩ := timer_step h h1
    obtain ⟨s2, f1, f2⟩ := ih e2 h2
    exact ⟨s2, by simp only [implTs, e1, Option.bind_some, f1], f2⟩

/-! ### theorems -/

/-- C30 (partial).  For every history of setting actors, polling (with callbacks that set actors, arm themselves again or
clear themselves) and clearing: the calls are those of the specification, and
* each call was for an arming whose deadline had been reached, and every arming led to one call or is still pending, never
  both (`armed` is a permutation of calls and pending ones);
* the timer list holds exactly the pending actors, earliest deadline first;
* the loop's count of active timers is the number of pending actors plus the number of stuck ones.
Missing from the property: a pending actor that is cleared is still called, and the count does not go back to zero when
a repeating actor does not arm itself again; both shown below. -/
theorem actor_history_partial (mem : Id → Links) (alarm : Id → Nat) (ops : List TOp) (a : AT)
    (h : specTs AT.init ops = some a) :
    ∃ s, implTs (TS.init mem alarm) ops = some s ∧
      s.log = a.fired.map (fun f => (f.1, f.2.2)) ∧
      (∀ f ∈ a.fired, f.2.1 ≤ f.2.2) ∧
      a.armed.Perm (a.fired.map (fun f => (f.1, f.2.1)) ++ a.pending) ∧
      (∀ k, forward s.list.mem (a.pending.length + k) s.list.head = a.pending.map (·.1)) ∧
      a.pending.Pairwise (fun x y => x.2 ≤ y.2) ∧
      s.active = a.pending.length + a.stuck.length := by
  obtain ⟨s, e1, e2⟩ := timer_run (timer_init mem alarm) h
  refine ⟨s, e1, e2.log, e2.early, e2.perm, fun k => ?_, e2.sorted, by simpa using e2.active⟩
  rw [e2.rep.head]
  have := forward_seg (k := k) e2.rep.seg
  simpa using this

/-- A non-trivial history: two one-shot actors and one that arms itself again once and then clears itself. -/
example : (specTs AT.init [.set 1 50 1000, .set 2 10 2000, .set 3 20 2000, .poll 30000000 [], .poll 30000001 [.again 40 30000002],
    .poll 60000000 [.set 4 1 60000000], .poll 62000000 [], .poll 90000000 [.clear]]).map
    (fun a => (a.fired.map (·.1), a.pending, a.stuck)) = some ([2, 3, 1, 4, 3], [], []) := by decide +kernel

/-- C30: one poll, after any history.  If some actor's deadline has been reached, exactly one actor is called, and its
deadline is minimal among all pending ones; otherwise none is called. -/
theorem poll_calls_earliest (mem : Id → Links) (alarm : Id → Nat) (ops : List TOp) (a a' : AT) (now : Nat) (cb : List CbOp)
    (h : specTs AT.init ops = some a) (hp : a.poll now cb = some a') :
    ∃ s s', implTs (TS.init mem alarm) ops = some s ∧ pollTimers s now cb = some s' ∧
      ((∀ p ∈ a.pending, now < p.2) → s'.log = s.log) ∧
      ((∃ p ∈ a.pending, p.2 ≤ now) →
        ∃ p ∈ a.pending, p.2 ≤ now ∧ (∀ q ∈ a.pending, p.2 ≤ q.2) ∧ s'.log = s.log ++ [(p.1, now)]) := by
  obtain ⟨s, e1, e2⟩ := timer_run (timer_init mem alarm) h
  obtain ⟨s', f1, f2⟩ := poll_inv e2 hp
  have hfired : ∀ (t : Id) (cb : List CbOp) (b b' : AT), specCb t b cb = some b' → b'.fired = b.fired := by
    intro t cb
    induction cb with
    | nil => intro b b' hb; simp only [specCb, Option.some.injEq] at hb; rw [hb]
    | cons c cb ih =>
      intro b b' hb
      cases c with
      | again ms now =>
        simp only [specCb] at hb
        split at hb
        · have := ih _ _ hb; exact this
        · simp at hb
      | clear =>
        simp only [specCb] at hb
        split at hb
        · have := ih _ _ hb; exact this
        · simp at hb
      | set t' ms now =>
        simp only [specCb, Option.bind_eq_some_iff] at hb
        obtain ⟨b1, h1, h2⟩ := hb
        rw [ih _ _ h2]
        unfold AT.set at h1
        split at h1
        · simp only [Option.some.injEq] at h1; rw [← h1]; rfl
        · simp at h1
  refine ⟨s, s', e1, f1, ?_, ?_⟩
  · intro hn
    rw [f2.log, e2.log]
    unfold AT.poll at hp
    split at hp
    · simp only [Option.some.injEq] at hp; rw [hp]
    · rename_i p rest hpd
      have := hn p (by rw [hpd]; simp)
      rw [if_neg (by omega)] at hp
      simp only [Option.some.injEq] at hp; rw [hp]
  · rintro ⟨q, hq, hqn⟩
    unfold AT.poll at hp
    split at hp
    · rename_i hpd; rw [hpd] at hq; simp at hq
    · rename_i p rest hpd
      have hst := e2.sorted
      rw [hpd, List.pairwise_cons] at hst
      have hmin : ∀ q ∈ a.pending, p.2 ≤ q.2 := by
        intro q hq
        rw [hpd] at hq
        rcases List.mem_cons.1 hq with rfl | hq
        · exact Nat.le_refl _
        · exact hst.1 q hq
      have hd : p.2 ≤ now := le_trans (hmin q hq) hqn
      rw [if_pos hd, Option.map_eq_some_iff] at hp
      obtain ⟨a1, h1, h2⟩ := hp
      refine ⟨p, by rw [hpd]; simp, hd, hmin, ?_⟩
      have hf : a'.fired = a.fired ++ [(p.1, p.2, now)] := by
        rw [← h2]
        have := hfired _ _ _ _ h1
        unfold AT.after
        split <;> exact this
      rw [f2.log, e2.log, hf]
      simp

/-! Steps of the specification with the deadlines as variables: computing with the sums makes the kernel unfold
products with 1000000. -/

theorem spec_set {t : Id} {ms : Int} {now d : Nat} (hg : goodMs ms now) (hd : now + ms.toNat * 1000000 = d) :
    specT AT.init (.set t ms now) = some ⟨[(t, d)], [(t, d)], [], Function.update (fun _ => false) t false, [], [t]⟩ := by
  show AT.set _ _ _ _ = _
  unfold AT.set
  rw [if_pos ⟨by simp [AT.init], hg⟩]
  unfold AT.arm
  rw [hd]
  rfl

theorem spec_poll {t : Id} {d n : Nat} {cb : List CbOp} {ar fi re st us} (h : d ≤ n) :
    specT ⟨[(t, d)], ar, fi, re, st, us⟩ (.poll n cb) =
      (specCb t ⟨[], ar, fi ++ [(t, d, n)], re, st, us⟩ cb).map (AT.after t) := by
  simp only [specT, AT.poll]
  exact if_pos h

theorem spec_again {t : Id} {ms : Int} {now d : Nat} {ar fi re st us} (hg : goodMs ms now)
    (hd : now + ms.toNat * 1000000 = d) :
    specCb t ⟨[], ar, fi, re, st, us⟩ [.again ms now] =
      some ⟨[(t, d)], ar ++ [(t, d)], fi, Function.update re t true, st, us⟩ := by
  unfold specCb
  rw [if_pos ⟨by simp, hg⟩]
  unfold AT.arm specCb
  rw [hd]
  rfl

/-- C30 is false of cleared actors: whatever the duration and the times, an actor that is set and then cleared before its
deadline is still called by the first poll after the deadline. -/
theorem cleared_actor_fires (mem : Id → Links) (alarm : Id → Nat) (t : Id) (ms : Int) (now later : Nat) (hg : goodMs ms now)
    (hl : now + ms.toNat * 1000000 ≤ later) :
    ∃ s, implTs (TS.init mem alarm) [.set t ms now, .clear t, .poll later []] = some s ∧ s.log = [(t, later)] := by
  have h : (specTs AT.init [.set t ms now, .clear t, .poll later []]).map (fun a => a.fired) =
      some [(t, now + ms.toNat * 1000000, later)] := by
    obtain ⟨d, hd⟩ : ∃ d, now + ms.toNat * 1000000 = d := ⟨_, rfl⟩
    rw [hd] at hl ⊢
    unfold specTs
    rw [spec_set hg hd]
    simp [specTs, specT, AT.poll, hl, specCb, AT.after]
  rw [Option.map_eq_some_iff] at h
  obtain ⟨a, h1, h2⟩ := h
  obtain ⟨s, e1, e2⟩ := timer_run (timer_init mem alarm) h1
  exact ⟨s, e1, by rw [e2.log, h2]; rfl⟩

/-- C30 is false of the count: an actor that arms itself again the first time and does nothing the second time is never
called any more, but counts as active for ever (so the loop is never considered idle), whatever the times. -/
theorem stuck_actor_counts (mem : Id → Links) (alarm : Id → Nat) (t : Id) (later : Nat) (hl : 3000000 ≤ later)
    (hb : later < 2 ^ 63) (polls : List Nat) :
    ∃ s, implTs (TS.init mem alarm) ([.set t 1 1000000, .poll later [.again 1 later], .poll (later + 1000000) []] ++
      polls.map (fun n => TOp.poll n [])) = some s ∧ s.active = 1 ∧ s.list.head = none := by
  have h : (specTs AT.init [.set t 1 1000000, .poll later [.again 1 later], .poll (later + 1000000) []]).map
      (fun a => (a.pending, a.stuck)) = some ([], [t]) := by
    have hg : goodMs 1 1000000 := by decide
    have hg2 : goodMs 1 later := by refine ⟨by omega, by omega, ?_⟩; show later + 1 * 1000000 < _; omega
    obtain ⟨d, hd⟩ : ∃ d, 1000000 + (1 : Int).toNat * 1000000 = d := ⟨_, rfl⟩
    obtain ⟨d2, hd2⟩ : ∃ d2, later + (1 : Int).toNat * 1000000 = d2 := ⟨_, rfl⟩
    obtain ⟨n, hn⟩ : ∃ n, later + 1000000 = n := ⟨_, rfl⟩
    have e1 : (1 : Int).toNat = 1 := rfl
    have hl' : d ≤ later := by rw [e1] at hd; omega
    have hl2 : d2 ≤ n := by rw [e1] at hd2; omega
    rw [hn]
    unfold specTs
    rw [spec_set hg hd]
    simp only [Option.bind_some]
    unfold specTs
    rw [spec_poll hl', spec_again hg2 hd2]
    simp [specTs, specT, AT.poll, hl2, specCb, AT.after]
  rw [Option.map_eq_some_iff] at h
  obtain ⟨a, h1, h2⟩ := h
  obtain ⟨s, e1, e2⟩ := timer_run (timer_init mem alarm) h1
  simp only [Prod.mk.injEq] at h2
  have hh : s.list.head = none := by rw [e2.rep.head, h2.1]; rfl
  have happ : ∀ (l1 l2 : List TOp) (s : TS), implTs s (l1 ++ l2) = (implTs s l1).bind fun s => implTs s l2 := by
    intro l1
    induction l1 with
    | nil => intro l2 s; rfl
    | cons o l1 ih =>
      intro l2 s
      simp only [List.cons_append, implTs]
      cases implT s o with
      | none => rfl
      | some s1 => simp only [Option.bind_some]; exact ih l2 s1
  have hpolls : implTs s (polls.map (fun n => TOp.poll n [])) = some s := by
    induction polls with
    | nil => rfl
    | cons n polls ih =>
      simp only [List.map_cons, implTs, implT, pollTimers, hh, Option.bind_some]
      exact ih
  refine ⟨s, by rw [happ, e1, Option.bind_some, hpolls], ?_, hh⟩
  have := e2.active
  rw [h2.1, h2.2] at this
  simpa using this

/-- An actor that arms itself again and then clears itself in the same call is freed while it is on the timer list: the
next poll reads freed memory. -/
theorem again_then_clear_ub (mem : Id → Links) (alarm : Id → Nat) (t : Id) (n : Nat) (cb : List CbOp) :
    implTs (TS.init mem alarm) [.set t 1 1000000, .poll 3000000 [.again 1 3000000, .clear], .poll n cb] = none := by
  simp [implTs, implT, setActor, armActor, actorDeadline, TS.init, TL.empty, findSlot, insertAt, insertLinks, insertPrev,
    insertNext, pollTimers, runCb, repeatActor, clearActor, setNext, setPrev, dequeue, skipForward, skipBackward]

/-! ### C31 -/

/-- C31 (partial): right for 0 to 2147 milliseconds.  Missing: longer durations, see below. -/
theorem actor_deadline_partial (now : Nat) (ms : Int) (h0 : 0 ≤ ms) (h1 : ms ≤ 2147) (hb : now + ms.toNat * 1000000 < 2 ^ 64) :
    actorDeadline now ms = some (now + ms.toNat * 1000000) := deadline_good ⟨h0, h1, hb⟩

example : actorDeadline 1700000000000000000 2147 = some 1700000002147000000 := by decide

/-- C31 is false: for every longer duration the computation overflows `int`, which is undefined. -/
theorem actor_deadline_overflow (now : Nat) (ms : Int) (h : 2148 ≤ ms) : actorDeadline now ms = none := by
  unfold actorDeadline
  rw [if_neg (by omega)]

example : actorDeadline 1700000000000000000 5000 = none := actor_deadline_overflow _ _ (by decide)

end Verif.Sched
