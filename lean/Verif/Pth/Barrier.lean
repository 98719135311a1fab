import Mathlib.Data.List.Perm.Basic
import Mathlib.Data.List.Range

/-!
# Barriers of the bundled POSIX threads for Windows (`include/compat/pthread.h` 879-944), C183, C184

Any number of threads share one barrier.  What a thread does between `EnterCriticalSection` and either `LeaveCriticalSection` or
`SleepConditionVariableCS` happens without interruption, so one step of the model is one such stretch.  A sleeping thread may wake
at any time for no reason, as the condition variables of Windows allow.

Simplified: `int total` is a natural number; it stays below 2^31 because the number of threads of a barrier is at most 2^30.
-/

namespace Verif.Pth.Barrier

/-- `_PTHREAD_BARRIER_FLAG` (879). -/
def FLAG : Nat := 1073741824

/-- A thread that sleeps (or has been woken and has not yet got the critical section back) in the loop at 930-933.  `num` counts
the calls let into the barrier before it (ghost). -/
structure Inside where
  tid : Nat
  num : Nat
  awake : Bool
  deriving DecidableEq

/-- A call that has returned: the thread, its number, the value it got, and how many calls had been let in by then. -/
structure Ret where
  tid : Nat
  num : Nat
  val : Nat
  seen : Nat
  deriving DecidableEq

/-- `pthread_barrier_t` (139-145) with the threads in it: `ent` are the threads in the loop at 912-915 with the mark whether they
have been woken, `ins` those in the loop at 930-933.  `adm` and `rets` are ghosts. -/
structure St where
  count : Nat
  total : Nat
  ent : List (Nat × Bool)
  ins : List Inside
  adm : Nat
  rets : List Ret

/-- `pthread_barrier_init` (896-907). -/
def init (c : Nat) : St := { count := c, total := 0, ent := [], ins := [], adm := 0, rets := [] }

/-- `WakeAllConditionVariable`: both loops sleep on the same variable. -/
def wakeAll (s : St) : St :=
  { s with ent := s.ent.map fun e => (e.1, true), ins := s.ins.map fun i => { i with awake := true } }

/-- The loop at 930-933 and what follows it (935-942), for thread `t` with number `n`. -/
def insideBody (s : St) (t n : Nat) : St :=
  if s.total < FLAG then { s with ins := s.ins ++ [⟨t, n, false⟩] }
  else
    let s' := { s with total := s.total - 1, rets := ⟨t, n, 0, s.adm⟩ :: s.rets }
    if s'.total = FLAG then wakeAll s' else s'

/-- `pthread_barrier_wait` from the top of the loop at 912 on (912-943), thread `t` holding the critical section. -/
def enterBody (s : St) (t : Nat) : St :=
  if FLAG < s.total then { s with ent := s.ent ++ [(t, false)] }
  else
    let total := (if s.total = FLAG then 0 else s.total) + 1
    if total = s.count then
      wakeAll { s with total := total + (FLAG - 1), adm := s.adm + 1, rets := ⟨t, s.adm, 1, s.adm + 1⟩ :: s.rets }
    else insideBody { s with total := total, adm := s.adm + 1 } t s.adm

/-- `t` is in a call of `pthread_barrier_wait`. -/
def St.busy (s : St) (t : Nat) : Bool := s.ent.any (·.1 == t) || s.ins.any (·.tid == t)

inductive Ev where
  /-- thread `t`, not in a call, calls `pthread_barrier_wait` and gets the critical section -/
  | call (t : Nat)
  /-- thread `t` wakes without having been woken -/
  | spurious (t : Nat)
  /-- thread `t`, awake, gets the critical section back -/
  | resume (t : Nat)
  deriving DecidableEq

/-- One step.  Events that cannot happen leave the state alone. -/
def step (s : St) : Ev → St
  | .call t => if s.busy t then s else enterBody s t
  | .spurious t =>
    { s with
      ent := s.ent.map fun e => if e.1 = t then (e.1, true) else e
      ins := s.ins.map fun i => if i.tid = t then { i with awake := true } else i }
  | .resume t =>
    if (t, true) ∈ s.ent then enterBody { s with ent := s.ent.erase (t, true) } t
    else
      match s.ins.find? (fun i => i.tid == t && i.awake) with
      | some i => insideBody { s with ins := s.ins.erase i } t i.num
      | none => s

def run (c : Nat) (evs : List Ev) : St := evs.foldl step (init c)

/-! ## Invariant -/

/-- Every call let in, as (number, thread). -/
def parts (s : St) : List (Nat × Nat) := s.rets.map (fun r => (r.num, r.tid)) ++ s.ins.map (fun i => (i.num, i.tid))

/-- The group that starts at number `q * c` is filling. -/
structure Fill (c : Nat) (s : St) (q : Nat) : Prop where
  lt : s.total < c
  len : s.ins.length = s.total
  adm : s.adm = q * c + s.total
  nums : ∀ i ∈ s.ins, q * c ≤ i.num

/-- The group that ended at number `(q + 1) * c - 1` is full and its members leave. -/
structure Drain (c : Nat) (s : St) (q : Nat) : Prop where
  total : s.total = FLAG + s.ins.length
  len : s.ins.length < c
  adm : s.adm = q * c + c
  nums : ∀ i ∈ s.ins, q * c ≤ i.num ∧ i.num + 1 < q * c + c

/-- What holds whoever is awake. -/
structure Inv0 (c : Nat) (s : St) : Prop where
  count : s.count = c
  tids : (s.ent.map (·.1) ++ s.ins.map (·.tid)).Nodup
  phase : ∃ q, Fill c s q ∨ Drain c s q
  all : ((parts s).map (·.1)).Perm (List.range s.adm)
  dist : ∀ a ∈ parts s, ∀ b ∈ parts s, a.1 / c = b.1 / c → a.2 = b.2 → a.1 = b.1
  rets : ∀ r ∈ s.rets, r.seen ≤ s.adm ∧
    ∃ q j, r.num = q * c + j ∧ j < c ∧ q * c + c ≤ r.seen ∧ r.val = if j + 1 = c then 1 else 0

/-- Who sleeps has reason to. -/
structure Inv (c : Nat) (s : St) : Prop extends Inv0 c s where
  ent : ∀ e ∈ s.ent, e.2 = false → FLAG < s.total
  ins : ∀ i ∈ s.ins, i.awake = false → s.total < FLAG

theorem init_inv {c : Nat} (h : 1 ≤ c) : Inv c (init c) :=
  { count := rfl
    tids := by simp [init]
    phase := ⟨0, .inl ⟨h, rfl, by simp [init], by simp [init]⟩⟩
    ent := by simp [init]
    ins := by simp [init]
    all := by simp [init, parts]
    dist := by simp [init, parts]
    rets := by simp [init] }

theorem parts_wakeAll (s : St) : parts (wakeAll s) = parts s := by
  simp [parts, wakeAll, Function.comp_def]

theorem total_lt_of_fill {c : Nat} {s : St} {q : Nat} (hc : c ≤ FLAG) (h : Fill c s q) : s.total < FLAG := lt_of_lt_of_le h.lt hc

/-- After waking everybody the whole invariant holds. -/
theorem wakeAll_inv {c : Nat} {s : St} (h : Inv0 c s) : Inv c (wakeAll s) := by
  obtain ⟨q, hq⟩ := h.phase
  refine ⟨⟨h.count, ?_, ⟨q, ?_⟩, ?_, ?_, h.rets⟩, ?_, ?_⟩
  · have := h.tids
    simpa [wakeAll, Function.comp_def] using this
  · rcases hq with hq | hq
    · refine .inl ⟨hq.lt, by simpa [wakeAll] using hq.len, hq.adm, ?_⟩
      intro i hi
      simp only [wakeAll, List.mem_map] at hi
      obtain ⟨j, hj, rfl⟩ := hi
      exact hq.nums j hj
    · refine .inr ⟨by simpa [wakeAll] using hq.total, by simpa [wakeAll] using hq.len, hq.adm, ?_⟩
      intro i hi
      simp only [wakeAll, List.mem_map] at hi
      obtain ⟨j, hj, rfl⟩ := hi
      exact hq.nums j hj
  · rw [parts_wakeAll]; exact h.all
  · rw [parts_wakeAll]; exact h.dist
  · intro e he hf
    simp only [wakeAll, List.mem_map] at he
    obtain ⟨a, _, rfl⟩ := he
    simp at hf
  · intro i hi hf
    simp only [wakeAll, List.mem_map] at hi
    obtain ⟨a, _, rfl⟩ := hi
    simp at hf

theorem div_group {q c j : Nat} (h : j < c) : (q * c + j) / c = q := by
  have hc : 0 < c := by omega
  rw [Nat.mul_comm, Nat.mul_add_div hc, Nat.div_eq_of_lt h, Nat.add_zero]

/-- Numbers of calls let in are below `adm`. -/
theorem parts_lt {c : Nat} {s : St} (h : Inv0 c s) {a : Nat × Nat} (ha : a ∈ parts s) : a.1 < s.adm := by
  have : a.1 ∈ (parts s).map (·.1) := List.mem_map_of_mem ha
  exact List.mem_range.1 (h.all.mem_iff.1 this)

theorem parts_lt' {c : Nat} {s : St} (h : Inv0 c s) {i : Inside} (hi : i ∈ s.ins) : i.num < s.adm :=
  parts_lt (a := (i.num, i.tid)) h (List.mem_append_right _ (List.mem_map_of_mem (f := fun i : Inside => (i.num, i.tid)) hi))

theorem mem_parts {s : St} {a : Nat × Nat} :
    a ∈ parts s ↔ (∃ r ∈ s.rets, (r.num, r.tid) = a) ∨ ∃ i ∈ s.ins, (i.num, i.tid) = a := by
  simp [parts]

/-- While a group fills, none of its members has returned. -/
theorem ret_before {c q T : Nat} {s : St} (h : Inv0 c s) (hT : T < c) (ha : s.adm = q * c + T) {r : Ret} (hr : r ∈ s.rets) :
    r.num / c < q := by
  obtain ⟨h1, q2, j, e, hj, h2, _⟩ := h.rets r hr
  rw [e, div_group hj]
  by_contra hlt
  have : q * c ≤ q2 * c := Nat.mul_le_mul_right c (Nat.le_of_not_lt hlt)
  omega

/-- A new member of the filling group. -/
theorem dist_new {c q T t : Nat} {s : St} (h : Inv0 c s) (hT : T < c) (ha : s.adm = q * c + T)
    (ht : ∀ i ∈ s.ins, i.tid ≠ t) : ∀ a ∈ parts s, a.1 / c = s.adm / c → a.2 ≠ t := by
  intro a hm hd
  rw [ha, div_group hT] at hd
  rcases mem_parts.1 hm with ⟨r, hr, rfl⟩ | ⟨i, hi, rfl⟩
  · have := ret_before h hT ha hr
    simp only at hd; omega
  · exact ht i hi

theorem dist_cons {c n t : Nat} {l : List (Nat × Nat)}
    (h : ∀ a ∈ l, ∀ b ∈ l, a.1 / c = b.1 / c → a.2 = b.2 → a.1 = b.1)
    (hn : ∀ a ∈ l, a.1 / c = n / c → a.2 ≠ t) {l' : List (Nat × Nat)} (hl : ∀ a ∈ l', a = (n, t) ∨ a ∈ l) :
    ∀ a ∈ l', ∀ b ∈ l', a.1 / c = b.1 / c → a.2 = b.2 → a.1 = b.1 := by
  intro a ha b hb hd he
  rcases hl a ha with rfl | ha <;> rcases hl b hb with rfl | hb
  · rfl
  · exact absurd he.symm (hn b hb hd.symm)
  · exact absurd he (hn a ha hd)
  · exact h a ha b hb hd he

theorem not_busy {s : St} {t : Nat} (h : s.busy t = false) :
    (∀ e ∈ s.ent, e.1 ≠ t) ∧ ∀ i ∈ s.ins, i.tid ≠ t := by
  simp only [St.busy, Bool.or_eq_false_iff, List.any_eq_false, beq_iff_eq] at h
  exact h

theorem enterBody_inv {c t : Nat} {s : St} (hc : 1 ≤ c) (hF : c ≤ FLAG) (h : Inv c s) (he : ∀ e ∈ s.ent, e.1 ≠ t)
    (hi : ∀ i ∈ s.ins, i.tid ≠ t) : Inv c (enterBody s t) := by
  unfold enterBody
  by_cases hT : FLAG < s.total
  · rw [if_pos hT]
    obtain ⟨q, hq⟩ := h.phase
    refine ⟨⟨h.count, ?_, ⟨q, ?_⟩, h.all, h.dist, h.rets⟩, ?_, h.ins⟩
    · have hn := h.tids
      have : (t :: (s.ent.map (·.1) ++ s.ins.map (·.tid))).Nodup := by
        refine List.nodup_cons.2 ⟨?_, hn⟩
        simp only [List.mem_append, List.mem_map, not_or, not_exists, not_and]
        exact ⟨fun e hm => he e hm, fun i hm => hi i hm⟩
      refine List.Perm.nodup ?_ this
      simp only [List.map_append, List.map_cons, List.map_nil, List.append_assoc, List.cons_append, List.nil_append]
      exact List.perm_middle.symm
    · rcases hq with hq | hq
      · exact .inl ⟨hq.lt, hq.len, hq.adm, hq.nums⟩
      · exact .inr ⟨hq.total, hq.len, hq.adm, hq.nums⟩
    · intro _ _ _; exact hT
  · rw [if_neg hT]
    dsimp only
    have hent : ∀ e ∈ s.ent, e.2 = true := by
      intro e hm
      cases hb : e.2
      · exact absurd (h.ent e hm hb) hT
      · rfl
    obtain ⟨q, T, hTe, hTc, hlen, hadm, hnum⟩ : ∃ q T, (if s.total = FLAG then 0 else s.total) = T ∧ T < c ∧ s.ins.length = T ∧
        s.adm = q * c + T ∧ ∀ i ∈ s.ins, q * c ≤ i.num := by
      obtain ⟨q, hq | hq⟩ := h.phase
      · have := total_lt_of_fill hF hq
        exact ⟨q, s.total, if_neg (by omega), hq.lt, hq.len, hq.adm, hq.nums⟩
      · have h1 := hq.total
        have h0 : s.ins.length = 0 := by omega
        refine ⟨q + 1, 0, if_pos (by omega), hc, h0, ?_, ?_⟩
        · rw [Nat.succ_mul]; exact hq.adm
        · rw [List.length_eq_zero_iff.1 h0]; simp
    rw [hTe]
    have hw := h.toInv0
    have hnew := dist_new hw hTc hadm hi
    have hperm : ((s.adm, t) :: parts s).map (·.1) |>.Perm (List.range (s.adm + 1)) := by
      rw [List.range_succ]
      exact (List.Perm.cons _ h.all).trans (List.perm_append_singleton _ _).symm
    have hadmc : (s.adm + 1) = q * c + (T + 1) := by omega
    by_cases hf : T + 1 = s.count
    · rw [if_pos hf]
      rw [h.count] at hf
      refine wakeAll_inv ⟨h.count, h.tids, ⟨q, .inr ⟨?_, ?_, ?_, ?_⟩⟩, ?_, ?_, ?_⟩
      · show T + 1 + (FLAG - 1) = FLAG + s.ins.length
        have : 1 ≤ FLAG := by decide
        omega
      · show s.ins.length < c; omega
      · show s.adm + 1 = q * c + c; omega
      · intro i hm
        have := parts_lt' hw hm
        have := hnum i hm
        omega
      · simpa [parts] using hperm
      · refine dist_cons h.dist hnew ?_
        intro a ha
        simpa [parts, or_assoc] using ha
      · intro r hr
        rcases List.mem_cons.1 hr with rfl | hr
        · exact ⟨Nat.le_refl _, q, T, hadm, hTc, by dsimp only; omega, by rw [if_pos hf]⟩
        · obtain ⟨h1, h2⟩ := h.rets r hr
          exact ⟨Nat.le_succ_of_le h1, h2⟩
    · rw [if_neg hf]
      rw [h.count] at hf
      unfold insideBody
      dsimp only
      rw [if_pos (show T + 1 < FLAG by omega)]
      refine ⟨⟨h.count, ?_, ⟨q, .inl ⟨?_, ?_, hadmc, ?_⟩⟩, ?_, ?_, ?_⟩, ?_, ?_⟩
      · have : (t :: (s.ent.map (·.1) ++ s.ins.map (·.tid))).Nodup := by
          refine List.nodup_cons.2 ⟨?_, h.tids⟩
          simp only [List.mem_append, List.mem_map, not_or, not_exists, not_and]
          exact ⟨fun e hm => he e hm, fun i hm => hi i hm⟩
        refine List.Perm.nodup ?_ this
        simp only [List.map_append, List.map_cons, List.map_nil, ← List.append_assoc]
        exact (List.perm_append_singleton _ _).symm
      · show T + 1 < c; omega
      · simp [hlen]
      · intro i hm
        rcases List.mem_append.1 hm with hm | hm
        · exact hnum i hm
        · rw [List.mem_singleton.1 hm]; dsimp only; omega
      · refine List.Perm.trans ?_ hperm
        simp only [parts, List.map_append, List.map_cons, List.map_nil, ← List.append_assoc]
        exact List.perm_append_singleton _ _
      · refine dist_cons h.dist hnew ?_
        intro a ha
        simp only [parts, List.map_append, List.map_cons, List.map_nil, ← List.append_assoc] at ha
        rcases List.mem_append.1 ha with ha | ha
        · exact .inr ha
        · exact .inl (List.mem_singleton.1 ha)
      · intro r hr
        obtain ⟨h1, h2⟩ := h.rets r hr
        exact ⟨Nat.le_succ_of_le h1, h2⟩
      · intro e hm hb
        rw [hent e hm] at hb; cases hb
      · intro _ _ _
        show T + 1 < FLAG
        omega

/-- Replacing the members by a permutation of them with other marks keeps what holds whoever is awake. -/
theorem inv0_perm {c : Nat} {s : St} (h : Inv0 c s) {ent : List (Nat × Bool)} {ins : List Inside}
    (h1 : (ent.map (·.1)).Perm (s.ent.map (·.1)))
    (h2 : (ins.map fun i => (i.num, i.tid)).Perm (s.ins.map fun i => (i.num, i.tid))) :
    Inv0 c { s with ent := ent, ins := ins } := by
  have hlen : ins.length = s.ins.length := by simpa using h2.length_eq
  have htid : (ins.map (·.tid)).Perm (s.ins.map (·.tid)) := by
    have := h2.map Prod.snd
    simpa [Function.comp_def] using this
  have hmem : ∀ i ∈ ins, ∃ j ∈ s.ins, j.num = i.num := by
    intro i hi
    have hm : (i.num, i.tid) ∈ ins.map fun i => (i.num, i.tid) := List.mem_map.2 ⟨i, hi, rfl⟩
    obtain ⟨j, hj, e⟩ := List.mem_map.1 (h2.mem_iff.1 hm)
    exact ⟨j, hj, congrArg Prod.fst e⟩
  have hparts : (parts { s with ent := ent, ins := ins }).Perm (parts s) := List.Perm.append_left _ h2
  obtain ⟨q, hq⟩ := h.phase
  refine ⟨h.count, (List.Perm.append h1 htid).nodup_iff.2 h.tids, ⟨q, ?_⟩, (hparts.map _).trans h.all, ?_, h.rets⟩
  · rcases hq with hq | hq
    · refine .inl ⟨hq.lt, hlen.trans hq.len, hq.adm, ?_⟩
      intro i hi
      obtain ⟨j, hj, e⟩ := hmem i hi
      rw [← e]; exact hq.nums j hj
    · refine .inr ⟨?_, by rw [show ({ s with ent := ent, ins := ins } : St).ins.length = s.ins.length from hlen]; exact hq.len, hq.adm, ?_⟩
      · show s.total = FLAG + ins.length
        rw [hlen]; exact hq.total
      · intro i hi
        obtain ⟨j, hj, e⟩ := hmem i hi
        rw [← e]; exact hq.nums j hj
  · intro a ha b hb
    exact h.dist a (hparts.mem_iff.1 ha) b (hparts.mem_iff.1 hb)

theorem resume_inv {c : Nat} {s : St} (hF : c ≤ FLAG) (h : Inv c s) {i : Inside} (hi : i ∈ s.ins) :
    Inv c (insideBody { s with ins := s.ins.erase i } i.tid i.num) := by
  have hp : s.ins.Perm (i :: s.ins.erase i) := List.perm_cons_erase hi
  unfold insideBody
  by_cases hT : s.total < FLAG
  · rw [if_pos hT]
    refine ⟨?_, h.ent, fun _ _ _ => hT⟩
    refine inv0_perm h.toInv0 (ent := s.ent) (ins := s.ins.erase i ++ [⟨i.tid, i.num, false⟩]) (List.Perm.refl _) ?_
    rw [List.map_append]
    refine List.Perm.trans ?_ (hp.map _).symm
    exact List.perm_append_singleton _ _
  · rw [if_neg hT]
    dsimp only
    obtain ⟨q, hq⟩ := h.phase
    rcases hq with hq | hq
    · exact absurd (total_lt_of_fill hF hq) hT
    have hlen : (s.ins.erase i).length + 1 = s.ins.length := by simpa using hp.length_eq.symm
    have htot := hq.total
    have hsub : ∀ j ∈ s.ins.erase i, j ∈ s.ins := fun j hj => List.mem_of_mem_erase hj
    have key : Inv0 c { s with
        total := s.total - 1, ins := s.ins.erase i, rets := ⟨i.tid, i.num, 0, s.adm⟩ :: s.rets } := by
      have hparts : (parts { s with
          total := s.total - 1, ins := s.ins.erase i, rets := ⟨i.tid, i.num, 0, s.adm⟩ :: s.rets }).Perm (parts s) := by
        simp only [parts, List.map_cons, List.cons_append]
        refine List.Perm.trans List.perm_middle.symm (List.Perm.append_left _ ?_)
        exact (hp.map fun i : Inside => (i.num, i.tid)).symm
      refine ⟨h.count, ?_, ⟨q, .inr ⟨?_, ?_, hq.adm, ?_⟩⟩, (hparts.map _).trans h.all, ?_, ?_⟩
      · refine List.Nodup.sublist ?_ h.tids
        exact List.Sublist.append_left ((List.erase_sublist).map _) _
      · show s.total - 1 = FLAG + (s.ins.erase i).length
        omega
      · have := hq.len
        show (s.ins.erase i).length < c
        omega
      · intro j hj
        exact hq.nums j (hsub j hj)
      · intro a ha b hb
        exact h.dist a (hparts.mem_iff.1 ha) b (hparts.mem_iff.1 hb)
      · intro r hr
        rcases List.mem_cons.1 hr with rfl | hr
        · obtain ⟨h1, h2⟩ := hq.nums i hi
          have h3 := hq.adm
          exact ⟨Nat.le_refl _, q, i.num - q * c, by dsimp only; omega, by omega, by dsimp only; omega,
            by rw [if_neg (by omega)]⟩
        · exact h.rets r hr
    split
    · exact wakeAll_inv key
    · rename_i hne
      refine ⟨key, ?_, ?_⟩
      · intro e _ _
        show FLAG < s.total - 1
        omega
      · intro j hj hb
        exact absurd (h.ins j (hsub j hj) hb) hT

theorem step_inv {c : Nat} {s : St} (hc : 1 ≤ c) (hF : c ≤ FLAG) (h : Inv c s) (e : Ev) : Inv c (step s e) := by
  cases e with
  | call t =>
    simp only [step]
    split
    · exact h
    · rename_i hb
      obtain ⟨h1, h2⟩ := not_busy (Bool.eq_false_iff.2 hb)
      exact enterBody_inv hc hF h h1 h2
  | spurious t =>
    simp only [step]
    refine ⟨inv0_perm h.toInv0 ?_ ?_, ?_, ?_⟩
    · rw [List.map_map]
      refine List.Perm.of_eq (List.map_congr_left ?_)
      intro a _
      simp only [Function.comp]
      split <;> rfl
    · rw [List.map_map]
      refine List.Perm.of_eq (List.map_congr_left ?_)
      intro a _
      simp only [Function.comp]
      split <;> rfl
    · intro e he hb
      obtain ⟨a, ha, rfl⟩ := List.mem_map.1 he
      split at hb
      · cases hb
      · exact h.ent a ha hb
    · intro e he hb
      obtain ⟨a, ha, rfl⟩ := List.mem_map.1 he
      split at hb
      · cases hb
      · exact h.ins a ha hb
  | resume t =>
    simp only [step]
    split
    · rename_i hm
      have hp : (s.ent.map (·.1)).Perm (t :: (s.ent.erase (t, true)).map (·.1)) := by
        simpa using (List.perm_cons_erase hm).map (·.1)
      have hn : (t :: ((s.ent.erase (t, true)).map (·.1) ++ s.ins.map (·.tid))).Nodup :=
        (hp.append_right _).nodup h.tids
      obtain ⟨h1, h2⟩ := List.nodup_cons.1 hn
      simp only [List.mem_append, List.mem_map, not_or, not_exists, not_and] at h1
      have hk : Inv c { s with ent := s.ent.erase (t, true) } := by
        obtain ⟨q, hq⟩ := h.phase
        refine ⟨⟨h.count, h2, ⟨q, ?_⟩, h.all, h.dist, h.rets⟩, ?_, h.ins⟩
        · rcases hq with hq | hq
          · exact .inl ⟨hq.lt, hq.len, hq.adm, hq.nums⟩
          · exact .inr ⟨hq.total, hq.len, hq.adm, hq.nums⟩
        · intro e he
          exact h.ent e (List.mem_of_mem_erase he)
      exact enterBody_inv hc hF hk (fun e he => h1.1 e he) (fun i hi => h1.2 i hi)
    · split
      · rename_i i hf
        have hi := List.mem_of_find?_eq_some hf
        have ht := List.find?_some hf
        simp only [Bool.and_eq_true, beq_iff_eq] at ht
        rw [← ht.1]
        exact resume_inv hF h hi
      · exact h

theorem run_inv {c : Nat} (hc : 1 ≤ c) (hF : c ≤ FLAG) (evs : List Ev) : Inv c (run c evs) := by
  have : ∀ (evs : List Ev) (s : St), Inv c s → Inv c (evs.foldl step s) := by
    intro evs
    induction evs with
    | nil => exact fun _ h => h
    | cons e evs ih => exact fun s h => ih _ (step_inv hc hF h e)
  exact this evs _ (init_inv hc)

end Verif.Pth.Barrier
