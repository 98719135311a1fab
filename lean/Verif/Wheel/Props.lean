import Verif.Wheel.Run

/-!
# Properties of descriptor timeouts (C32, C33)

A legal history (`specHs … = some _`, `Spec.lean`): descriptors are added once and deleted once, only registered ones get a
timeout, deadlines lie within the 128 ticks from the last passed tick, and a timeout callback touches no other registered
descriptor.  Outside of these limits the claims fail; see the end of the file.
-/

namespace Verif.Wheel

/-- Claim C32, C33: on every legal history the code runs without a failed assertion, calls back exactly the descriptors
that the specification says, at the same times and in the same order; never before the deadline has passed. -/
theorem wheel_refines_spec (maxFd maxTimeout : Nat) (t : Int) (h0 : 0 < maxTimeout) (cb : Cb) (os : List HOp) (a : AW)
    (h : specHs (cfg maxFd maxTimeout t) cb (AW.init t) os = some a) :
    ∃ w, implHs maxFd cb (Wheel.init maxTimeout t) os = some w ∧
      w.log = a.log.map (fun e => (e.1, e.2.2)) ∧ ∀ e ∈ a.log, e.2.1 < e.2.2 := by
  obtain ⟨w, hw, i⟩ := run_inv (init_inv maxFd maxTimeout t h0) h
  exact ⟨w, hw, i.log, i.early⟩

/-- Claim C33: after every legal history a summary bit is set iff its word is non-zero, and the bit of a descriptor is set
in exactly the slot recorded for it. -/
theorem wheel_consistent_partial (maxFd maxTimeout : Nat) (t : Int) (h0 : 0 < maxTimeout) (cb : Cb) (os : List HOp) (a : AW)
    (h : specHs (cfg maxFd maxTimeout t) cb (AW.init t) os = some a) :
    ∃ w, implHs maxFd cb (Wheel.init maxTimeout t) os = some w ∧
      (∀ slot, slot < 128 → ∀ j, (w.vov slot (j / 16)).getMsbD (j % 16) = true ↔ w.vec slot j ≠ 0) ∧
      (∀ slot, slot < 128 → ∀ fd, (w.vec slot (fd / 16)).getMsbD (fd % 16) = true ↔ w.idx fd = slot) := by
  obtain ⟨w, hw, i⟩ := run_inv (init_inv maxFd maxTimeout t h0) h
  refine ⟨w, hw, fun slot hs j => i.sums slot hs trivial j, fun slot hs fd => ?_⟩
  have hb := i.bits slot hs trivial fd
  unfold bitOf at hb
  rw [hb, i.idx fd]
  cases a.arm fd with
  | none => simp; omega
  | some p => simp

/-- Claim C33: every word that `events_set_timeout` and the check touch lies inside the allocated block, summary words
before the descriptor words, slots not overlapping. -/
theorem wheel_indices_in_bounds (maxFd slot fd slot' fd' : Nat) (hs : slot < 128) (hfd : fd < maxFd) (hs' : slot' < 128)
    (hfd' : fd' < maxFd) :
    slot * vecOfVecSize maxFd + fd / 16 / 16 < vecOfVecSize maxFd * 128 ∧
    vecOfVecSize maxFd * 128 + slot * vecSize maxFd + fd / 16 < (vecOfVecSize maxFd + vecSize maxFd) * 128 ∧
    (slot * vecSize maxFd + fd / 16 = slot' * vecSize maxFd + fd' / 16 → slot = slot' ∧ fd / 16 = fd' / 16) ∧
    (slot * vecOfVecSize maxFd + fd / 16 / 16 = slot' * vecOfVecSize maxFd + fd' / 16 / 16 →
      slot = slot' ∧ fd / 16 / 16 = fd' / 16 / 16) := by
  have e1 : maxFd ≤ 16 * vecSize maxFd := by unfold vecSize rndUp; omega
  have e2 := rows_enough maxFd
  obtain ⟨V, hV⟩ : ∃ V, V = vecSize maxFd := ⟨_, rfl⟩
  obtain ⟨U, hU⟩ : ∃ U, U = vecOfVecSize maxFd := ⟨_, rfl⟩
  rw [← hV] at e1 ⊢
  rw [← hU] at e2 ⊢
  have key : ∀ {N s j s' j' : Nat}, j < N → j' < N → s * N + j = s' * N + j' → s = s' ∧ j = j' := by
    intro N s j s' j' hj hj' h
    have h1 : s = s' := by
      have := congrArg (· / N) h
      have hN : 0 < N := by omega
      simp only [Nat.mul_comm _ N, Nat.mul_add_div hN, Nat.div_eq_of_lt hj, Nat.div_eq_of_lt hj'] at this
      omega
    subst h1
    omega
  have b1 : fd / 16 / 16 < U := by omega
  have b2 : fd / 16 < V := by omega
  refine ⟨?_, ?_, key b2 (by omega), key b1 (by omega)⟩
  · nlinarith
  · nlinarith

def COp.fd : COp → Nat
  | .set fd _ => fd
  | .add fd _ => fd
  | .del fd => fd

/-- Neither the program nor any callback touches the timeout of `fd`. -/
def Quiet (fd : Nat) (cb : Cb) (os : List HOp) : Prop :=
  (∀ n k, ∀ o ∈ cb n k, o.fd ≠ fd) ∧ ∀ o, HOp.op o ∈ os → o.fd ≠ fd

/-- The times at which `fd` was called back. -/
def calls (log : List (Nat × Int)) (fd : Nat) : List Int := (log.filter (·.1 = fd)).map (·.2)

/-- The calls of `fd` with their deadlines. -/
def callsD (log : List (Nat × Int × Int)) (fd : Nat) : List (Int × Int) := (log.filter (·.1 = fd)).map (·.2)

/-- Either `st` is still armed and nothing happened, or it has happened once. -/
def Pend (fd : Nat) (st : Option (Nat × Int)) (l : List (Int × Int)) (a : AW) : Prop :=
  (a.arm fd = st ∧ callsD a.log fd = l) ∨ (a.arm fd = none ∧ ∃ p, st = some p ∧ ∃ t, callsD a.log fd = l ++ [(p.2, t)])

theorem op_other {c : Cfg} {who : Option Nat} {a a' : AW} {o : COp} {fd : Nat} (hq : o.fd ≠ fd)
    (hs : specOp c who a o = some a') : a'.arm fd = a.arm fd ∧ a'.log = a.log := by
  have hset : ∀ {a a' : AW} {x : Nat} {secs : Int}, x ≠ fd → a.set c x secs = some a' → a'.arm fd = a.arm fd ∧ a'.log = a.log := by
    intro a a' x secs hx h
    unfold AW.set at h
    split at h
    · injection h with h; subst h; exact ⟨Function.update_of_ne (Ne.symm hx) _ _, rfl⟩
    · split at h
      · injection h with h; subst h; exact ⟨Function.update_of_ne (Ne.symm hx) _ _, rfl⟩
      · exact absurd h (by simp)
  cases o with
  | set x secs =>
    simp only [specOp] at hs
    split at hs
    · exact hset hq hs
    · exact absurd hs (by simp)
  | add x secs =>
    simp only [specOp] at hs
    split at hs
    · have := hset hq hs; exact this
    · exact absurd hs (by simp)
  | del x =>
    simp only [specOp] at hs
    split at hs
    · injection hs with hs; subst hs; exact ⟨Function.update_of_ne (Ne.symm hq) _ _, rfl⟩
    · exact absurd hs (by simp)

theorem ops_other {c : Cfg} {who : Option Nat} {fd : Nat} : ∀ {os : List COp} {a a' : AW}, (∀ o ∈ os, o.fd ≠ fd) →
    specOps c who a os = some a' → a'.arm fd = a.arm fd ∧ a'.log = a.log
  | [], a, a', _, hs => by
    simp only [specOps] at hs
    injection hs with hs
    subst hs
    exact ⟨rfl, rfl⟩
  | o :: os, a, a', hq, hs => by
    simp only [specOps] at hs
    cases h1 : specOp c who a o with
    | none => rw [h1] at hs; exact absurd hs (by simp)
    | some a1 =>
      rw [h1] at hs
      have k1 := op_other (hq o (by simp)) h1
      have k2 := ops_other (fun o ho => hq o (by simp [ho])) hs
      exact ⟨k2.1.trans k1.1, k2.2.trans k1.2⟩

theorem fire_pend {c : Cfg} {cb : Cb} {fd k : Nat} {st : Option (Nat × Int)} {l : List (Int × Int)} {a a' : AW}
    (hq : ∀ n k, ∀ o ∈ cb n k, o.fd ≠ fd) (h : Pend fd st l a) (hs : specFire c cb a k = some a') : Pend fd st l a' := by
  unfold specFire at hs
  cases ha : a.arm k with
  | none => rw [ha] at hs; exact absurd hs (by simp)
  | some p =>
    rw [ha] at hs
    change specOps c (some k) { a with arm := Function.update a.arm k none, log := a.log ++ [(k, p.2, a.now)] }
      (cb a.log.length k) = some a' at hs
    obtain ⟨h1, h2⟩ := ops_other (hq _ _) hs
    unfold Pend
    rw [h1, h2]
    show (Function.update a.arm k none fd = st ∧ callsD (a.log ++ [(k, p.2, a.now)]) fd = l) ∨
      (Function.update a.arm k none fd = none ∧ ∃ q, st = some q ∧ ∃ t, callsD (a.log ++ [(k, p.2, a.now)]) fd = l ++ [(q.2, t)])
    by_cases hk : fd = k
    · subst hk
      rcases h with ⟨e1, e2⟩ | ⟨e1, _⟩
      · right
        rw [ha] at e1
        subst e1
        refine ⟨by simp, p, rfl, a.now, ?_⟩
        rw [← e2]
        simp [callsD]
      · rw [ha] at e1; exact absurd e1 (by simp)
    · rw [Function.update_of_ne hk]
      have : callsD (a.log ++ [(k, p.2, a.now)]) fd = callsD a.log fd := by
        simp [callsD, Ne.symm hk]
      rw [this]
      exact h

theorem fireAll_pend {c : Cfg} {cb : Cb} {fd : Nat} {st : Option (Nat × Int)} {l : List (Int × Int)}
    (hq : ∀ n k, ∀ o ∈ cb n k, o.fd ≠ fd) : ∀ {ks : List Nat} {a a' : AW}, Pend fd st l a → fireAll c cb a ks = some a' →
    Pend fd st l a'
  | [], a, a', h, hs => by
    simp only [fireAll] at hs
    injection hs with hs
    subst hs
    exact h
  | k :: ks, a, a', h, hs => by
    simp only [fireAll] at hs
    cases h1 : specFire c cb a k with
    | none => rw [h1] at hs; exact absurd hs (by simp)
    | some a1 =>
      rw [h1] at hs
      exact fireAll_pend hq (fire_pend hq h h1) hs

theorem ticks_pend {c : Cfg} {cb : Cb} {fd : Nat} {st : Option (Nat × Int)} {l : List (Int × Int)}
    (hq : ∀ n k, ∀ o ∈ cb n k, o.fd ≠ fd) : ∀ {n : Nat} {a a' : AW}, Pend fd st l a → specTicks c cb n a = some a' →
    Pend fd st l a'
  | 0, a, a', h, hs => by
    simp only [specTicks] at hs
    injection hs with hs
    subst hs
    exact h
  | n + 1, a, a', h, hs => by
    simp only [specTicks] at hs
    cases h1 : fireAll c cb a (a.due c) with
    | none => rw [h1] at hs; exact absurd hs (by simp)
    | some a1 =>
      rw [h1] at hs
      have h2 : Pend fd st l a1 := fireAll_pend hq h h1
      exact ticks_pend (a := { a1 with base := a1.base + 1 }) hq h2 hs

theorem hist_pend {c : Cfg} {cb : Cb} {fd : Nat} {st : Option (Nat × Int)} {l : List (Int × Int)} :
    ∀ {os : List HOp} {a a' : AW}, Quiet fd cb os → Pend fd st l a → specHs c cb a os = some a' → Pend fd st l a'
  | [], a, a', _, h, hs => by
    simp only [specHs] at hs
    injection hs with hs
    subst hs
    exact h
  | o :: os, a, a', hq, h, hs => by
    simp only [specHs] at hs
    cases h1 : specH c cb a o with
    | none => rw [h1] at hs; exact absurd hs (by simp)
    | some a1 =>
      rw [h1] at hs
      refine hist_pend ⟨hq.1, fun o ho => hq.2 o (by simp [ho])⟩ ?_ hs
      cases o with
      | clock t =>
        simp only [specH] at h1
        injection h1 with h1
        subst h1
        exact h
      | op o =>
        obtain ⟨k1, k2⟩ := op_other (hq.2 o (by simp)) h1
        unfold Pend
        rw [k1, k2]
        exact h
      | check => exact ticks_pend hq.1 h h1

theorem specHs_append {c : Cfg} {cb : Cb} : ∀ {os os' : List HOp} {a : AW},
    specHs c cb a (os ++ os') = (specHs c cb a os).bind fun a => specHs c cb a os'
  | [], _, _ => rfl
  | o :: os, os', a => by
    simp only [List.cons_append, specHs]
    cases specH c cb a o with
    | none => rfl
    | some a1 => simp [specHs_append]

theorem calls_eq (log : List (Nat × Int × Int)) (fd : Nat) :
    calls (log.map fun e => (e.1, e.2.2)) fd = (callsD log fd).map (·.2) := by
  unfold calls callsD
  rw [List.filter_map]
  simp [Function.comp_def]

/-- Claim C32: on every legal history, a descriptor armed for `secs` seconds and then left alone is called back at most
once, only after the deadline has passed; and a check made at least one resolution after the deadline has called it.  (An
earlier timeout of the descriptor is replaced.)  The limits of a legal history are what is missing. -/
theorem timeout_fires_once_partial (maxFd maxTimeout : Nat) (t : Int) (h0 : 0 < maxTimeout) (cb : Cb) (pre : List HOp)
    (a a1 a2 : AW) (fd : Nat) (secs : Int) (hsecs : secs ≠ 0) (post : List HOp)
    (hpre : specHs (cfg maxFd maxTimeout t) cb (AW.init t) pre = some a)
    (hset : specOp (cfg maxFd maxTimeout t) none a (.set fd secs) = some a1) (hq : Quiet fd cb post)
    (hpost : specHs (cfg maxFd maxTimeout t) cb a1 post = some a2) :
    ∃ w w2, implHs maxFd cb (Wheel.init maxTimeout t) pre = some w ∧
      implHs maxFd cb (Wheel.init maxTimeout t) (pre ++ .op (.set fd secs) :: post) = some w2 ∧
      (calls w2.log fd = calls w.log fd ∨ ∃ at', calls w2.log fd = calls w.log fd ++ [at'] ∧ w.now + secs < at') ∧
      (post.getLast? = some .check → w.now + secs + ((maxTimeout + 127) / 128 : Nat) ≤ w2.now →
        ∃ at', calls w2.log fd = calls w.log fd ++ [at']) := by
  obtain ⟨w, hw, i⟩ := run_inv (init_inv maxFd maxTimeout t h0) hpre
  have hall : specHs (cfg maxFd maxTimeout t) cb (AW.init t) (pre ++ .op (.set fd secs) :: post) = some a2 := by
    rw [specHs_append, hpre]
    simp only [Option.bind_some, specHs, specH, hset, hpost]
  obtain ⟨w2, hw2, i2⟩ := run_inv (init_inv maxFd maxTimeout t h0) hall
  refine ⟨w, w2, hw, hw2, ?_⟩
  have harm : ∃ T, a1.arm fd = some (T, a.now + secs) ∧ a1.log = a.log := by
    simp only [specOp] at hset
    split at hset
    · unfold AW.set at hset
      rw [if_neg hsecs] at hset
      split at hset
      · injection hset with hset
        subst hset
        exact ⟨_, Function.update_self _ _ _, rfl⟩
      · exact absurd hset (by simp)
    · exact absurd hset (by simp)
  obtain ⟨T, hT, hlog⟩ := harm
  have hp : Pend fd (some (T, a.now + secs)) (callsD a.log fd) a2 :=
    hist_pend hq (Or.inl ⟨hT, by rw [hlog]⟩) hpost
  rw [i.log, i2.log, calls_eq, calls_eq, i.now, i2.now]
  have hearly : ∀ u, callsD a2.log fd = callsD a.log fd ++ [(a.now + secs, u)] → a.now + secs < u := by
    intro u hu
    have hm : (a.now + secs, u) ∈ callsD a2.log fd := by rw [hu]; simp
    unfold callsD at hm
    obtain ⟨e, he, hee⟩ := List.mem_map.1 hm
    have := i2.early e (List.mem_filter.1 he).1
    rw [hee] at this
    exact this
  constructor
  · rcases hp with ⟨_, h2⟩ | ⟨_, p, hp, u, h2⟩
    · left; rw [h2]
    · right
      injection hp with hp
      subst hp
      exact ⟨u, by rw [h2]; simp, hearly u h2⟩
  · intro hlast hnow
    rcases hp with ⟨h1, _⟩ | ⟨_, p, hp, u, h2⟩
    · exfalso
      obtain ⟨post', rfl⟩ : ∃ p', post = p' ++ [.check] := by
        obtain ⟨p', hp'⟩ := List.getLast?_eq_some_iff.1 hlast
        exact ⟨p', hp'⟩
      have hall' : specHs (cfg maxFd maxTimeout t) cb (AW.init t) ((pre ++ .op (.set fd secs) :: post') ++ [.check]) = some a2 := by
        rw [← hall]; simp
      rw [specHs_append] at hall'
      cases hm : specHs (cfg maxFd maxTimeout t) cb (AW.init t) (pre ++ .op (.set fd secs) :: post') with
      | none => rw [hm] at hall'; exact absurd hall' (by simp)
      | some am =>
        rw [hm] at hall'
        obtain ⟨wm, _, im⟩ := run_inv (init_inv maxFd maxTimeout t h0) hm
        simp only [Option.bind_some, specHs] at hall'
        cases hc : specH (cfg maxFd maxTimeout t) cb am .check with
        | none => rw [hc] at hall'; exact absurd hall' (by simp)
        | some ac =>
          rw [hc] at hall'
          simp only [Option.bind_some] at hall'
          injection hall' with hall'
          subst hall'
          obtain ⟨_, _, _, hl⟩ := step_inv im hc
          have hl := hl rfl
          have hb := i2.arm fd _ h1
          have hst : (cfg maxFd maxTimeout t).start ac.base ≤ (cfg maxFd maxTimeout t).start T := by
            obtain ⟨k, hk⟩ := Nat.exists_eq_add_of_le hb.1
            change T = ac.base + k at hk
            rw [hk, start_add]
            have := i2.res_pos
            nlinarith [Int.natCast_nonneg k]
          have h5 := hb.2.2.2.2.1
          simp only at h5
          have hr : (cfg maxFd maxTimeout t).res = ((maxTimeout + 127) / 128 : Nat) := rfl
          rw [hr] at hl
          omega
    · injection hp with hp
      subst hp
      exact ⟨u, by rw [h2]; simp⟩

/-- Claim C32: after disarming, a descriptor left alone is never called back. -/
theorem disarmed_never_fires (maxFd maxTimeout : Nat) (t : Int) (h0 : 0 < maxTimeout) (cb : Cb) (pre : List HOp)
    (a a1 a2 : AW) (fd : Nat) (o : COp) (ho : o = .set fd 0 ∨ o = .del fd) (post : List HOp)
    (hpre : specHs (cfg maxFd maxTimeout t) cb (AW.init t) pre = some a)
    (hset : specOp (cfg maxFd maxTimeout t) none a o = some a1) (hq : Quiet fd cb post)
    (hpost : specHs (cfg maxFd maxTimeout t) cb a1 post = some a2) :
    ∃ w w2, implHs maxFd cb (Wheel.init maxTimeout t) pre = some w ∧
      implHs maxFd cb (Wheel.init maxTimeout t) (pre ++ .op o :: post) = some w2 ∧ calls w2.log fd = calls w.log fd := by
  obtain ⟨w, hw, i⟩ := run_inv (init_inv maxFd maxTimeout t h0) hpre
  have hall : specHs (cfg maxFd maxTimeout t) cb (AW.init t) (pre ++ .op o :: post) = some a2 := by
    rw [specHs_append, hpre]
    simp only [Option.bind_some, specHs, specH, hset, hpost]
  obtain ⟨w2, hw2, i2⟩ := run_inv (init_inv maxFd maxTimeout t h0) hall
  refine ⟨w, w2, hw, hw2, ?_⟩
  have harm : a1.arm fd = none ∧ a1.log = a.log := by
    rcases ho with rfl | rfl
    · simp only [specOp] at hset
      split at hset
      · unfold AW.set at hset
        rw [if_pos rfl] at hset
        injection hset with hset
        subst hset
        exact ⟨Function.update_self _ _ _, rfl⟩
      · exact absurd hset (by simp)
    · simp only [specOp] at hset
      split at hset
      · injection hset with hset
        subst hset
        exact ⟨Function.update_self _ _ _, rfl⟩
      · exact absurd hset (by simp)
  have hp : Pend fd none (callsD a.log fd) a2 := hist_pend hq (Or.inl ⟨harm.1, by rw [harm.2]⟩) hpost
  rw [i.log, i2.log, calls_eq, calls_eq]
  rcases hp with ⟨_, h2⟩ | ⟨_, p, hp, _⟩
  · rw [h2]
  · exact absurd hp (by simp)

/-! A history that meets the hypotheses: descriptors 3 and 300, resolution 2 s; 3 is armed for 5 s, 300 for 9 s and in its
callback re-armed for 3 s.  Descriptor 3 is called at time 7 and 300 at 10 and 20. -/
def demoCb : Cb := fun n k => if k = 300 ∧ n < 2 then [.set 300 3] else []
def demo : List HOp :=
  [.op (.add 3 0), .op (.add 300 9), .op (.set 3 5), .clock 4, .check, .clock 7, .check, .clock 10, .check, .clock 20, .check]

example : (specHs (cfg 400 200 0) demoCb (AW.init 0) demo).map (·.log) = some [(3, 5, 7), (300, 9, 10), (300, 13, 20)] := by
  decide +kernel

example : (implHs 400 demoCb (Wheel.init 200 0) demo).map (·.log) = some [(3, 7), (300, 10), (300, 20)] := by
  decide +kernel

/-! ## Where the claims fail -/

/-- A timeout too long for the wheel, or set while the loop is behind, goes to the last slot. -/
theorem set_last {w : Wheel} {fd : Nat} {secs : Int} (hr : 0 < w.res) (hreg : w.reg fd = true) (hs : secs ≠ 0)
    (h : 127 * w.res ≤ w.now + secs - w.baseTime) :
    setTimeout w fd secs = some (setBit (clearBit w fd) fd 127) := by
  unfold setTimeout
  rw [if_pos hreg]
  have k : (clearBit w fd).res = w.res ∧ (clearBit w fd).now = w.now ∧ (clearBit w fd).baseTime = w.baseTime := by
    unfold clearBit; split <;> exact ⟨rfl, rfl, rfl⟩
  show (if secs ≠ 0 then (if (clearBit w fd).res = 0 then none else _) else _) = _
  rw [if_pos hs, if_neg (by rw [k.1]; omega)]
  congr 2
  unfold slotDelta
  rw [k.1, k.2.1, k.2.2, Int.tdiv_eq_ediv_of_nonneg (by omega)]
  have : 127 ≤ (w.now + secs - w.baseTime) / w.res := (Int.le_ediv_iff_mul_le hr).2 h
  simp only
  split
  · rfl
  · omega

theorem add_last (maxFd maxTimeout : Nat) (t now : Int) (h0 : 0 < maxTimeout) (fd : Nat) (secs : Int)
    (hs : secs ≠ 0) (h : t + 127 * ((maxTimeout + 127) / 128 : Nat) ≤ now + secs) (cb : Cb) :
    implH maxFd cb { Wheel.init maxTimeout t with now := now } (.op (.add fd secs)) =
      some (setBit { Wheel.init maxTimeout t with now := now, reg := Function.update (fun _ => false) fd true } fd 127) := by
  have hres : (Wheel.init maxTimeout t).res = ((maxTimeout + 127) / 128 : Nat) := by
    show ((rndUp maxTimeout 128 / 128 : Nat) : Int) = _
    unfold rndUp; omega
  have hid : Function.update (Wheel.init maxTimeout t).idx fd 255 = (Wheel.init maxTimeout t).idx :=
    Function.update_eq_self (f := (Wheel.init maxTimeout t).idx) fd
  simp only [implH, runOp, addFd]
  rw [hid, set_last (by show 0 < (Wheel.init maxTimeout t).res; rw [hres]; omega)
    (by simp) hs (by show 127 * (Wheel.init maxTimeout t).res ≤ now + secs - t; rw [hres]; omega), clear_none rfl]
  rfl

def quiet : Cb := fun _ _ => []

theorem due_nil {c : Cfg} {a : AW} (h : ∀ fd p, a.arm fd = some p → p.1 ≠ a.base) : a.due c = [] := by
  unfold AW.due
  rw [List.filter_eq_nil_iff]
  intro x _
  cases hx : a.arm x with
  | none => simp
  | some p => simpa using h x p hx

theorem ticks_none {c : Cfg} : ∀ {n : Nat} {a : AW}, (∀ fd, a.arm fd = none) →
    (specTicks c quiet n a).map (·.log) = some a.log
  | 0, a, _ => rfl
  | n + 1, a, h => by
    simp only [specTicks]
    rw [due_nil (by intro fd p hp; rw [h] at hp; exact absurd hp (by simp))]
    simp only [fireAll, Option.bind_some]
    exact ticks_none (a := { a with base := a.base + 1 }) h

theorem ticks_single {c : Cfg} {fd T : Nat} {d : Int} (hfd : fd < c.maxFd) : ∀ {n : Nat} {a : AW},
    a.arm = Function.update (fun _ => none) fd (some (T, d)) → a.base ≤ T → T < a.base + n →
    (specTicks c quiet n a).map (·.log) = some (a.log ++ [(fd, d, a.now)])
  | 0, a, _, h1, h2 => by omega
  | n + 1, a, ha, h1, h2 => by
    simp only [specTicks]
    have hiff : ∀ x p, a.arm x = some p → x = fd ∧ p = (T, d) := by
      intro x p hx
      rw [ha] at hx
      by_cases h : x = fd
      · subst h; simp at hx; exact ⟨rfl, hx.symm⟩
      · rw [Function.update_of_ne h] at hx; exact absurd hx (by simp)
    by_cases hb : a.base = T
    · have hdue : a.due c = [fd] := by
        apply sorted_ext (List.pairwise_lt_range.filter _) (by simp)
        intro x
        rw [List.mem_filter, List.mem_range, List.mem_singleton]
        constructor
        · rintro ⟨_, hx⟩
          cases hx' : a.arm x with
          | none => rw [hx'] at hx; simp at hx
          | some p => exact (hiff x p hx').1
        · rintro rfl
          exact ⟨hfd, by rw [ha]; simp [hb]⟩
      rw [hdue]
      simp only [fireAll, specFire]
      rw [show a.arm fd = some (T, d) by rw [ha]; simp]
      simp only [Option.bind_some, quiet, specOps]
      refine ticks_none (a := _) ?_
      intro x
      show Function.update a.arm fd none x = none
      by_cases h : x = fd
      · subst h; simp
      · rw [Function.update_of_ne h, ha, Function.update_of_ne h]
    · rw [due_nil (by
        intro x p hx
        rw [(hiff x p hx).2]
        exact Ne.symm hb)]
      simp only [fireAll, Option.bind_some]
      exact ticks_single hfd (a := { a with base := a.base + 1 }) ha (by show a.base + 1 ≤ T; omega)
        (by show T < a.base + 1 + n; omega)

/-- On a new loop that has not checked timeouts for a while, a timeout that ends after the last tick of the wheel is called
back as soon as the 128 ticks have passed. -/
theorem fires_with_wheel (maxFd maxTimeout : Nat) (t now late : Int) (h0 : 0 < maxTimeout) (fd : Nat) (hfd : fd < maxFd)
    (secs : Int) (hs : secs ≠ 0) (h : t + 127 * ((maxTimeout + 127) / 128 : Nat) ≤ now + secs)
    (hl : t + 128 * ((maxTimeout + 127) / 128 : Nat) ≤ late) :
    (implHs maxFd quiet (Wheel.init maxTimeout t) [.clock now, .op (.add fd secs), .clock late, .check]).map (·.log) =
      some [(fd, late)] := by
  obtain ⟨r, hr⟩ : ∃ r : Int, r = ((maxTimeout + 127) / 128 : Nat) := ⟨_, rfl⟩
  have hpos : 0 < r := by omega
  have hcr : (cfg maxFd maxTimeout t).res = r := hr.symm
  have hct : (cfg maxFd maxTimeout t).t0 = t := rfl
  have hc0 : (cfg maxFd maxTimeout t).start 0 = t := by simp [Cfg.start, hct]
  have hgo : implHs maxFd quiet (Wheel.init maxTimeout t) [.clock now, .op (.add fd secs), .clock late, .check] =
      implHs maxFd quiet (Wheel.init maxTimeout t) [.op (.add fd (127 * r)), .clock late, .check] := by
    have e1 := add_last maxFd maxTimeout t now h0 fd secs hs h quiet
    have e2 := add_last maxFd maxTimeout t t h0 fd (127 * r) (by omega) (by rw [← hr]) quiet
    have e3 : ({ Wheel.init maxTimeout t with now := t } : Wheel) = Wheel.init maxTimeout t := rfl
    rw [e3] at e2
    simp only [implHs]
    rw [show implH maxFd quiet (Wheel.init maxTimeout t) (.clock now) = some { Wheel.init maxTimeout t with now := now } from rfl]
    simp only [Option.bind_some]
    rw [e1, e2]
    rfl
  rw [hgo]
  have hq : (127 * r) / r = 127 := Int.mul_ediv_cancel _ (by omega)
  have hspec : (specHs (cfg maxFd maxTimeout t) quiet (AW.init t) [.op (.add fd (127 * r)), .clock late, .check]).map (·.log) =
      some [(fd, t + 127 * r, late)] := by
    simp only [specHs, specH, specOp]
    rw [if_pos ⟨hfd, by simp [AW.init]⟩]
    unfold AW.set
    rw [if_neg (by omega), if_pos (by
      rw [hcr]
      show 0 ≤ 127 * r ∧ (cfg maxFd maxTimeout t).start 0 ≤ t + 127 * r ∧ t + 127 * r < (cfg maxFd maxTimeout t).start 0 + 128 * r
      rw [hc0]
      omega)]
    simp only [Option.bind_some, Option.bind_fun_some]
    rw [hct, hcr]
    have hT : ((AW.init t).now + 127 * r - t) / r = 127 := by
      show (t + 127 * r - t) / r = 127
      rw [show t + 127 * r - t = 127 * r by ring, hq]
    rw [hT]
    refine (ticks_single (T := 127) (d := t + 127 * r) hfd rfl (Nat.zero_le _) ?_).trans rfl
    show 127 < 0 + ((late - (cfg maxFd maxTimeout t).start 0) / (cfg maxFd maxTimeout t).res).toNat
    rw [hc0, hcr]
    have : 128 ≤ (late - t) / r := (Int.le_ediv_iff_mul_le hpos).2 (by omega)
    omega
  cases hsp : specHs (cfg maxFd maxTimeout t) quiet (AW.init t) [.op (.add fd (127 * r)), .clock late, .check] with
  | none => rw [hsp] at hspec; exact absurd hspec (by simp)
  | some a =>
    rw [hsp] at hspec
    obtain ⟨w, hw, hlog, _⟩ := wheel_refines_spec maxFd maxTimeout t h0 quiet _ a hsp
    rw [hw]
    simp only [Option.map_some, Option.some.injEq] at hspec ⊢
    rw [hlog, hspec]
    rfl

/-- Against C32: every timeout longer than 128 ticks (the loop's `max_timeout`, rounded up) is called before its
deadline. -/
theorem long_timeout_fires_early (maxFd maxTimeout : Nat) (t : Int) (h0 : 0 < maxTimeout) (fd : Nat) (hfd : fd < maxFd)
    (secs : Int) (h : 128 * ((maxTimeout + 127) / 128 : Nat) < secs) :
    ∃ late, (implHs maxFd quiet (Wheel.init maxTimeout t) [.op (.add fd secs), .clock late, .check]).map (·.log) =
      some [(fd, late)] ∧ late < t + secs := by
  refine ⟨t + 128 * ((maxTimeout + 127) / 128 : Nat), ?_, by omega⟩
  exact fires_with_wheel maxFd maxTimeout t t _ h0 fd hfd secs (by omega) (by omega) (le_refl _)

/-- Against C32: when the loop has not checked timeouts for 128 ticks (it was made long before it is run, or a callback
took that long), every timeout set in the next round before the check, however long, is called in the same round. -/
theorem timeout_after_idle_fires_at_once (maxFd maxTimeout : Nat) (t now : Int) (h0 : 0 < maxTimeout) (fd : Nat)
    (hfd : fd < maxFd) (h : t + 128 * ((maxTimeout + 127) / 128 : Nat) ≤ now) (secs : Int) (hs : 0 < secs) :
    (implHs maxFd quiet (Wheel.init maxTimeout t) [.clock now, .op (.add fd secs), .check]).map (·.log) = some [(fd, now)] := by
  have := fires_with_wheel maxFd maxTimeout t now now h0 fd hfd secs (by omega) (by omega) h
  rw [← this]
  have e1 := add_last maxFd maxTimeout t now h0 fd secs (by omega) (by omega) quiet
  simp only [implHs]
  rw [show implH maxFd quiet (Wheel.init maxTimeout t) (.clock now) = some { Wheel.init maxTimeout t with now := now } from rfl]
  simp only [Option.bind_some]
  rw [e1]
  rfl

/-- Against C32: a loop made with `max_timeout` 0 divides by zero when any timeout is set. -/
theorem zero_max_timeout_divides_by_zero (t : Int) (fd : Nat) (secs : Int) (h : secs ≠ 0) :
    addFd (Wheel.init 0 t) fd secs = none := by
  simp [addFd, setTimeout, Wheel.init, rndUp, h, clearBit]

/-- Against C32: in a timeout callback, deleting another descriptor whose timeout is due in the same tick makes the loop
fail an assertion. -/
theorem delete_other_in_callback_aborts :
    ∃ cb : Cb, (∀ n k, ∀ o ∈ cb n k, o = .del 4) ∧
      implHs 16 cb (Wheel.init 128 0) [.op (.add 3 1), .op (.add 4 1), .clock 2, .check] = none := by
  refine ⟨fun _ k => if k = 3 then [.del 4] else [], ?_, ?_⟩
  · intro n k o ho
    simp only at ho
    split at ho
    · simpa using ho
    · simp at ho
  · rw [← Option.isNone_iff_eq_none]
    decide +kernel

/-- Against C32, C33: in a timeout callback, re-arming another descriptor due in the same tick for 100 s does not keep it
from being called, and leaves its bit in the wheel although no timeout is recorded for it. -/
theorem rearm_other_in_callback_wrong :
    ∃ (cb : Cb) (w : Wheel), (∀ n k, ∀ o ∈ cb n k, o = .set 4 100) ∧
      implHs 16 cb (Wheel.init 128 0) [.op (.add 3 1), .op (.add 4 1), .clock 2, .check] = some w ∧
      w.log = [(3, 2), (4, 2)] ∧ w.idx 4 = 255 ∧ (w.vec 102 (4 / 16)).getMsbD (4 % 16) = true := by
  refine ⟨fun _ k => if k = 3 then [.set 4 100] else [], ?_⟩
  have h : (implHs 16 (fun _ k => if k = 3 then [.set 4 100] else []) (Wheel.init 128 0)
      [.op (.add 3 1), .op (.add 4 1), .clock 2, .check]).map
      (fun w => (w.log, w.idx 4, (w.vec 102 (4 / 16)).getMsbD (4 % 16))) = some ([(3, 2), (4, 2)], 255, true) := by
    decide +kernel
  obtain ⟨w, hw, he⟩ := Option.map_eq_some_iff.1 h
  refine ⟨w, ?_, hw, ?_, ?_, ?_⟩
  · intro n k o ho
    simp only at ho
    split at ho
    · simpa using ho
    · simp at ho
  · exact congrArg Prod.fst he
  · exact congrArg (·.2.1) he
  · exact congrArg (·.2.2) he

/-- Against C33: adding a descriptor that is registered already, with a timeout armed, leaves its old bit in the wheel: the
timeout that was to be replaced still happens. -/
theorem add_again_keeps_old_timeout (fd : Nat) (hfd : fd < 16) :
    (implHs 16 quiet (Wheel.init 128 0) [.op (.add fd 1), .op (.add fd 0), .clock 2, .check]).map (·.log) =
      some [(fd, 2)] := by
  have : ∀ fd : Fin 16, (implHs 16 quiet (Wheel.init 128 0) [.op (.add fd 1), .op (.add fd 0), .clock 2, .check]).map (·.log) =
      some [((fd : Nat), 2)] := by decide +kernel
  exact this ⟨fd, hfd⟩

end Verif.Wheel
