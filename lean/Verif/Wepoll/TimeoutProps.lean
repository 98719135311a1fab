import Verif.Wepoll.Timeout

/-! # C154 and C155: how long epoll for Windows waits -/

namespace Verif.Wepoll.Timeout

/-! ## C154: `epoll_pwait2` -/

/-- No time limit is passed on as no time limit. -/
theorem null_waits_forever : pwait2 none = some (-1) := rfl

/-- `epoll_pwait2` waits for the time asked for, rounded up to milliseconds,
only if the remainder by a million of the nanoseconds rounded up happens to be
their quotient. -/
theorem pwait2_right_iff_partial {sec nsec : Int} (h : Short sec nsec) :
    (∃ k, pwait2 (some (sec, nsec)) = some k ∧ Rounded sec nsec k) ↔
      (nsec + 999999) % 1000000 = (nsec + 999999) / 1000000 := by
  have hv := pwait2_value h
  obtain ⟨h1, h2, h3, h4⟩ := h
  constructor
  · rintro ⟨k, hk, hr⟩
    rw [hv] at hk
    injection hk with hk
    unfold Rounded at hr
    omega
  · intro e
    refine ⟨_, hv, ?_⟩
    unfold Rounded
    omega

/-- For every whole number of milliseconds `k` below a second, none included,
the time passed on is 999999 ms for the fraction. -/
theorem whole_milliseconds_wrong {sec k : Int} (h : Short sec (k * 1000000)) :
    pwait2 (some (sec, k * 1000000)) = some (sec * 1000 + 999999) := by
  rw [pwait2_value h]
  congr 1
  omega

/-- One nanosecond more than a whole number of milliseconds, and the fraction
is dropped: the wait ends too early by `k + 1` ms. -/
theorem one_more_is_too_early {sec k : Int} (h : Short sec (k * 1000000 + 1)) :
    pwait2 (some (sec, k * 1000000 + 1)) = some (sec * 1000) := by
  rw [pwait2_value h]
  congr 1
  omega

/-- From 2147484 seconds (about 25 days) on, the computation overflows. -/
theorem long_times_overflow {sec nsec : Int} (h : 2147484 ≤ sec) (h' : sec ≤ 2147483647) :
    pwait2 (some (sec, nsec)) = none := by
  have e1 : toInt sec = sec := by unfold toInt; omega
  have : inInt (sec * 1000) = none := if_neg (by omega)
  simp only [pwait2, e1, this]

/-- Ask for no wait at all: about 1000 seconds. -/
example : pwait2 (some (0, 0)) = some 999999 := by decide
/-- Half a second. -/
example : pwait2 (some (0, 500000000)) = some 999999 := by decide
/-- 500 ms and one nanosecond. -/
example : pwait2 (some (0, 500000001)) = some 0 := by decide
/-- A case where the result is right: 2 ms and 3 ns less a million. -/
example : pwait2 (some (5, 1000003)) = some 5002 ∧ Rounded 5 1000003 5002 := by
  unfold Rounded; decide
example : Short 3 (250 * 1000000) := by unfold Short; decide

/-! ## C155: `port_wait` -/

/-- The clock does not go back. -/
def Clock : Nat → List Turn → Prop
  | _, [] => True
  | c, t :: ts => c ≤ t.now ∧ Clock t.now ts

/-- The kernel: a call returns by its limit at the latest, and says
`WAIT_TIMEOUT` only when its limit is reached. -/
def Contract (calls : List Call) (ts : List Turn) : Prop :=
  ∀ (i c l : Nat) (t : Turn), calls[i]? = some (c, l) → ts[i]? = some t →
    t.now ≤ c + l ∧ (t.gq = .failed WAIT_TIMEOUT → c + l ≤ t.now)

theorem loop_limits {timeout : Int} (ht : 0 < timeout) (hb : timeout ≤ 2147483647) {t0 : Nat}
    {ts : List Turn} {c : Nat} (hc : t0 ≤ c) (hm : Clock c ts) {l : Nat}
    (hl : c + l = t0 + timeout.toNat) :
    ∀ x ∈ (loop timeout (t0 + timeout.toNat) c l ts).1, x.1 + x.2 = t0 + timeout.toNat := by
  induction ts generalizing c l with
  | nil => intro x hx; simp [loop] at hx
  | cons t ts ih =>
    obtain ⟨m1, m2⟩ := hm
    intro x hx
    simp only [loop] at hx
    split at hx
    · simp at hx
    · split at hx
      · simp only [List.mem_singleton] at hx; subst hx; exact hl
      · split at hx
        · simp only [List.mem_singleton] at hx; subst hx; exact hl
        · rw [if_neg (by omega)] at hx
          split at hx
          · simp only [List.mem_singleton] at hx; subst hx; exact hl
          · rename_i hd
            simp only [List.mem_cons] at hx
            rcases hx with rfl | hx
            · exact hl
            · refine ih (by omega) m2 ?_ x hx
              rw [Nat.mod_eq_of_lt (by omega)]
              omega

theorem start_pos {timeout : Int} (ht : 0 < timeout) (hb : timeout ≤ 2147483647) (t0 : Nat) :
    start timeout t0 = (t0 + timeout.toNat, timeout.toNat) := by
  unfold start
  rw [if_pos ht, Nat.mod_eq_of_lt (by omega)]

/-- Whatever comes in meanwhile: every call of the kernel is given just the
time that is left. -/
theorem limits_add_up {timeout : Int} (ht : 0 < timeout) (hb : timeout ≤ 2147483647) {t0 : Nat}
    {ts : List Turn} (hm : Clock t0 ts) (late : Option Nat) :
    ∀ x ∈ (portWait timeout t0 ts late).1, x.1 + x.2 = t0 + timeout.toNat := by
  unfold portWait
  rw [start_pos ht hb]
  exact loop_limits ht hb (Nat.le_refl _) hm rfl

/-- The wait is over when the time is over, if each call returns by its limit,
however many packets without an event come in. -/
theorem never_late {timeout : Int} (ht : 0 < timeout) (hb : timeout ≤ 2147483647) {t0 : Nat}
    {ts : List Turn} (hm : Clock t0 ts) (late : Option Nat)
    (hk : Contract (portWait timeout t0 ts late).1 ts) {i : Nat} {x : Call} {t : Turn}
    (hx : (portWait timeout t0 ts late).1[i]? = some x) (hti : ts[i]? = some t) :
    t.now ≤ t0 + timeout.toNat := by
  have h1 := limits_add_up ht hb hm late x (List.mem_of_getElem? hx)
  have h2 := (hk i x.1 x.2 t hx hti).1
  omega

theorem loop_zero {timeout : Int} (ht : 0 < timeout) {due : Nat}
    {ts : List Turn} {c l : Nat} {r : Int} {e : Nat}
    (h : (loop timeout due c l ts).2 = some (r, e))
    (hr : r = 0 ∨ (r < 0 ∧ e = WAIT_TIMEOUT)) (hu : ∀ t ∈ ts, t.upd ≠ some WAIT_TIMEOUT) :
    ∃ (i : Nat) (t : Turn) (x : Call), ts[i]? = some t ∧ (loop timeout due c l ts).1[i]? = some x ∧
      (t.gq = .failed WAIT_TIMEOUT ∨ due ≤ t.now) := by
  induction ts generalizing c l with
  | nil => simp [loop] at h
  | cons t ts ih =>
    simp only [loop] at h ⊢
    cases hup : t.upd with
    | some e' =>
      simp only [hup, Option.some.injEq, Prod.mk.injEq] at h
      obtain ⟨rfl, rfl⟩ := h
      rcases hr with hr | ⟨-, hr⟩
      · omega
      · exact absurd (by rw [hup, hr]) (hu t List.mem_cons_self)
    | none =>
      simp only [hup] at h ⊢
      cases hg : t.gq with
      | failed e' =>
        simp only [hg, Option.some.injEq, Prod.mk.injEq] at h
        obtain ⟨rfl, rfl⟩ := h
        refine ⟨0, t, (c, l), rfl, rfl, .inl ?_⟩
        rcases hr with hr | ⟨-, hr⟩
        · omega
        · rw [hg, hr]
      | got k =>
        simp only [hg] at h ⊢
        by_cases h0 : 0 < k
        · rw [if_pos h0] at h
          simp only [Option.some.injEq, Prod.mk.injEq] at h
          omega
        · rw [if_neg h0, if_neg (by omega)] at h ⊢
          by_cases hd : due ≤ t.now
          · rw [if_pos hd] at h ⊢
            exact ⟨0, t, (c, l), rfl, rfl, .inr hd⟩
          · rw [if_neg hd] at h ⊢
            obtain ⟨i, t', x, h1, h2, h3⟩ := ih h (fun t' ht' => hu t' (List.mem_cons_of_mem _ ht'))
            exact ⟨i + 1, t', x, by simpa using h1, by simpa using h2, h3⟩

/-- A time-out (the result 0) is not reported before the time is over. -/
theorem never_early {timeout : Int} (ht : 0 < timeout) (hb : timeout ≤ 2147483647) {t0 : Nat}
    {ts : List Turn} (hm : Clock t0 ts) (hu : ∀ t ∈ ts, t.upd ≠ some WAIT_TIMEOUT)
    (hk : Contract (portWait timeout t0 ts none).1 ts)
    (h0 : (portWait timeout t0 ts none).2 = some 0) :
    ∃ t ∈ ts, t0 + timeout.toNat ≤ t.now := by
  have hl := limits_add_up ht hb hm none
  unfold portWait at h0 hk hl
  rw [start_pos ht hb] at h0 hk hl
  dsimp only at h0 hk hl
  cases hr : (loop timeout (t0 + timeout.toNat) t0 timeout.toNat ts).2 with
  | none => rw [hr] at h0; simp at h0
  | some re =>
    obtain ⟨r, e⟩ := re
    rw [hr] at h0
    simp only [Option.map_some, Option.getD_none, Option.some.injEq] at h0
    have hz : r = 0 ∨ (r < 0 ∧ e = WAIT_TIMEOUT) := by
      by_cases h1 : 0 ≤ r
      · rw [if_pos h1] at h0; exact .inl h0
      · rw [if_neg h1] at h0
        by_cases h2 : e = WAIT_TIMEOUT
        · exact .inr ⟨by omega, h2⟩
        · rw [if_neg h2] at h0; omega
    obtain ⟨i, t, x, h1, h2, h3⟩ := loop_zero ht hr hz hu
    refine ⟨t, List.mem_of_getElem? h1, ?_⟩
    rcases h3 with h3 | h3
    · have h4 := hl x (List.mem_of_getElem? h2)
      have h5 := (hk i x.1 x.2 t h2 h1).2 h3
      omega
    · exact h3

/-- With the time 0 the kernel is asked at most once, and does not wait. -/
theorem zero_polls_once (t0 : Nat) (ts : List Turn) (late : Option Nat) :
    (portWait 0 t0 ts late).1 = [] ∨ (portWait 0 t0 ts late).1 = [(t0, 0)] := by
  unfold portWait start
  rw [if_neg (by omega), if_pos rfl]
  cases ts with
  | nil => left; rfl
  | cons t ts =>
    simp only [loop]
    split
    · left; rfl
    · split
      · right; rfl
      · split
        · right; rfl
        · rw [if_neg (by omega), if_pos (by omega)]
          right; rfl

theorem loop_forever {timeout : Int} (ht : timeout < 0) {due : Nat} {ts : List Turn} {c l : Nat} :
    ∀ x ∈ (loop timeout due c l ts).1, x.2 = l := by
  induction ts generalizing c with
  | nil => intro x hx; simp [loop] at hx
  | cons t ts ih =>
    intro x hx
    simp only [loop] at hx
    split at hx
    · simp at hx
    · split at hx
      · simp only [List.mem_singleton] at hx; subst hx; rfl
      · split at hx
        · simp only [List.mem_singleton] at hx; subst hx; rfl
        · simp only [List.mem_cons] at hx
          rcases hx with rfl | hx
          · rfl
          · exact ih x hx

/-- With a negative time no call has a limit. -/
theorem negative_waits_forever {timeout : Int} (ht : timeout < 0) (t0 : Nat) (ts : List Turn)
    (late : Option Nat) : ∀ x ∈ (portWait timeout t0 ts late).1, x.2 = INFINITE := by
  unfold portWait start
  rw [if_neg (by omega), if_neg (by omega)]
  exact loop_forever ht

theorem loop_events {timeout : Int} {due : Nat} {ts : List Turn} {c l : Nat} {r : Int} {e : Nat}
    (h : (loop timeout due c l ts).2 = some (r, e)) (hr : 0 < r) :
    ∃ t ∈ ts, t.gq = .got r.toNat := by
  induction ts generalizing c l with
  | nil => simp [loop] at h
  | cons t ts ih =>
    simp only [loop] at h
    cases hup : t.upd with
    | some e' =>
      simp only [hup, Option.some.injEq, Prod.mk.injEq] at h
      omega
    | none =>
      simp only [hup] at h
      cases hg : t.gq with
      | failed e' =>
        simp only [hg, Option.some.injEq, Prod.mk.injEq] at h
        omega
      | got k =>
        simp only [hg] at h
        split at h
        · simp only [Option.some.injEq, Prod.mk.injEq] at h
          refine ⟨t, List.mem_cons_self, ?_⟩
          rw [hg]
          congr 1
          omega
        · split at h
          · obtain ⟨t', h1, h2⟩ := ih h
            exact ⟨t', List.mem_cons_of_mem _ h1, h2⟩
          · split at h
            · simp only [Option.some.injEq, Prod.mk.injEq] at h
              omega
            · obtain ⟨t', h1, h2⟩ := ih h
              exact ⟨t', List.mem_cons_of_mem _ h1, h2⟩

/-- A positive result is the number of events one batch of packets gave. -/
theorem result_is_events {timeout : Int} {t0 : Nat} {ts : List Turn} {late : Option Nat} {r : Int}
    (h : (portWait timeout t0 ts late).2 = some r) (hr : 0 < r) :
    ∃ t ∈ ts, t.gq = .got r.toNat := by
  unfold portWait at h
  dsimp only at h
  cases hl : (loop timeout (start timeout t0).1 t0 (start timeout t0).2 ts).2 with
  | none => rw [hl] at h; simp at h
  | some re =>
    obtain ⟨r', e⟩ := re
    rw [hl] at h
    simp only [Option.map_some, Option.some.injEq] at h
    have : r' = r := by
      split at h
      · exact h
      · split at h <;> omega
    subst this
    exact loop_events hl hr

/-- No more packets are asked for than there is room for, in the list of
packets and in the array of the caller. -/
theorem packets_fit (maxevents : Nat) (mallocOk : Bool) (h : 0 < maxevents) :
    0 < (room maxevents mallocOk).1 ∧ (room maxevents mallocOk).1 ≤ (room maxevents mallocOk).2 ∧
      (room maxevents mallocOk).1 ≤ maxevents := by
  unfold room
  cases mallocOk <;> simp only [Bool.false_eq_true, if_false, if_true] <;>
    split <;> dsimp only <;> omega

/-- What is wrong: if another thread waits on the same handle, and a refused
poll request is found on its behalf after this thread timed out, the time-out
is reported as an error. -/
theorem timeout_reported_as_error (timeout : Int) (t0 now e : Nat) (he : e ≠ WAIT_TIMEOUT) :
    (portWait timeout t0 [⟨none, .failed WAIT_TIMEOUT, now⟩] (some e)).2 = some (-1) := by
  simp [portWait, loop, he]

/-- If that does not happen, a time-out is no error, and an error is none. -/
theorem timeout_is_zero_partial (timeout : Int) (t0 now e : Nat) :
    (portWait timeout t0 [⟨none, .failed e, now⟩] none).2 =
      some (if e = WAIT_TIMEOUT then 0 else -1) := by
  simp [portWait, loop]

/-! ## Cases -/

/-- 100 ms from clock 1000: a packet without an event after 30 ms, then
nothing. -/
def quiet : List Turn := [⟨none, .got 0, 1030⟩, ⟨none, .failed WAIT_TIMEOUT, 1100⟩]

example : portWait 100 1000 quiet none = ([(1000, 100), (1030, 70)], some 0) := by decide
example : Clock 1000 quiet := by simp [Clock, quiet]
example : Contract (portWait 100 1000 quiet none).1 quiet := by
  intro i c l t h1 h2
  have e : (portWait 100 1000 quiet none).1 = [(1000, 100), (1030, 70)] := by decide
  rw [e] at h1
  match i with
  | 0 => simp [quiet] at h1 h2; obtain ⟨rfl, rfl⟩ := h1; subst h2; simp [WAIT_TIMEOUT]
  | 1 => simp [quiet] at h1 h2; obtain ⟨rfl, rfl⟩ := h1; subst h2; simp
  | i + 2 => simp at h1

end Verif.Wepoll.Timeout
