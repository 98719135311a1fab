import Mathlib.Data.List.Nodup
import Mathlib.Data.List.Basic
import Mathlib.Data.List.Perm.Subperm

/-!
# Turning signals into exceptions (`src/except.c`, Linux)

`ex_signal_setup` (run by every `try`, every `guard`, the start of every task and the first use of a scope), `ex_signal_default`,
the table `ex_sig` behind them and the handler `ex_handler`, together with the other user of `sigaction` in the library, the
signals of the event loop (`events_add` and `events_del` with `EVENTS_SIGNAL`).
-/

namespace Verif.Except.Signals

/-- One slot of `ex_sig`, src/except.c:123-129.  `ex = none` is a NULL name. -/
structure Slot where
  ex : Option String
  sig : Nat
  deriving DecidableEq, Repr

/-- A slot of the zeroed static table. -/
def empty : Slot := ⟨none, 0⟩

/-- `max_ex_sig`, src/except.c:119-121. -/
def maxSig : Nat := 32

/-- What the kernel does when the signal arrives: the default action, `ex_handler` or `events_sig_handler`. -/
inductive Disp
  | dfl | ex | ev
  deriving DecidableEq, Repr

/-- The process: the table `ex_sig`, the flag `exception_signal_set` (src/except.c:78) and the dispositions held by the
kernel. -/
structure St where
  tab : List Slot
  set : Bool
  disp : Nat → Disp

/-- A process that has started. -/
def init : St := ⟨List.replicate maxSig empty, false, fun _ => .dfl⟩

/-- `sigaction` accepts the signals 1-64 except SIGKILL and SIGSTOP (Linux; that the C library keeps 32 and 33 for itself is left
out). -/
def valid (sig : Nat) : Bool := decide (1 ≤ sig) && decide (sig ≤ 64) && sig != 9 && sig != 19

/-- The first slot that is free or has this signal, src/except.c:679-682. -/
def slotFor (tab : List Slot) (sig : Nat) : Nat := tab.findIdx fun x => x.ex.isNone || x.sig == sig

/-- The disposition of one signal changes. -/
def put (f : Nat → Disp) (sig : Nat) (d : Disp) : Nat → Disp := fun x => if x = sig then d else f x

/-- `ex_signal`, src/except.c:676-711 (`sigemptyset` does not fail).  The name is not NULL. -/
def exSignal (s : St) (sig : Nat) (ex : String) : St :=
  if slotFor s.tab sig = maxSig then s
  else if valid sig then ⟨s.tab.set (slotFor s.tab sig) ⟨some ex, sig⟩, true, put s.disp sig .ex⟩
  else { s with set := true }

/-- `ex_signal_reset`, src/except.c:659-674. -/
def exReset (s : St) (sig : Nat) : St :=
  if valid sig then ⟨s.tab, false, put s.disp sig .dfl⟩ else { s with set := false }

/-- The signals of `ex_signal_setup` in order with their names, src/except.c:745-803, with their numbers on Linux.  SIGBREAK does
not exist there. -/
def std : List (Nat × String) :=
  [(11, "sig_segv"), (6, "sig_abrt"), (8, "sig_fpe"), (4, "sig_ill"), (2, "sig_int"), (15, "sig_term"), (3, "sig_quit"),
   (1, "sig_hup"), (28, "sig_winch"), (5, "sig_trap"), (13, "sig_pipe"), (14, "sig_alrm"), (7, "sig_bus")]

/-- SIGPIPE. -/
abbrev sigpipe : Nat := 13

/-- `ex_signal_setup`, src/except.c:713-803 (the allocator and the name of the program are left out). -/
def setup (s : St) : St := if s.set then s else std.foldl (fun s p => exSignal s p.1 p.2) s

/-- `ex_signal_default`, src/except.c:805-860: its list has no SIGPIPE. -/
def default (s : St) : St := [11, 6, 8, 4, 2, 15, 3, 1, 28, 5, 14, 7].foldl exReset s

/-- What happens in a program that uses the public functions: a `try` statement, `guard`, task or scope begins (or
`ex_signal_setup` is called); `ex_signal_default`; an `events_add` for a signal that succeeds (src/os_unix.c:689-727); an
`events_del` that removes a signal (src/os_unix.c:671-683). -/
inductive Op
  | try_
  | default
  | add (sig : Nat)
  | del (sig : Nat)
  deriving DecidableEq

def step (s : St) : Op → St
  | .try_ => setup s
  | .default => default s
  | .add n => if valid n then { s with disp := put s.disp n .ev } else s
  | .del n => if valid n then { s with disp := put s.disp n .dfl } else s

def run (ops : List Op) : St := ops.foldl step init

/-- `ex_handler`, src/except.c:632-657: the name of the exception that is thrown; `none`: NULL. -/
def thrown (s : St) (sig : Nat) : Option String := (s.tab.find? fun x => x.sig == sig).bind (·.ex)

/-- What the arrival of a signal does. -/
inductive Effect
  | default                          -- the kernel's default action
  | throws (ex : Option String)      -- the exception of this name is thrown in the running code
  | event                            -- the callback of the event loop
  deriving DecidableEq, Repr

/-- A signal arrives. -/
def arrive (s : St) (sig : Nat) : Effect :=
  match s.disp sig with
  | .dfl => .default
  | .ex => .throws (thrown s sig)
  | .ev => .event

/-! ## Lemmas -/

/-- The table holds these signals, each once, and is otherwise free. -/
def Holds (tab : List Slot) (u : List (Nat × String)) : Prop :=
  (u.map (·.1)).Nodup ∧ u.length ≤ maxSig ∧ (∀ p ∈ u, valid p.1 = true) ∧
    tab = u.map (fun p => ⟨some p.2, p.1⟩) ++ List.replicate (maxSig - u.length) empty

theorem valid_pos {n : Nat} (h : valid n = true) : n ≠ 0 := by
  intro h0
  subst h0
  simp [valid] at h

theorem find_mem {u : List (Nat × String)} {k : Nat} {n : Nat} {e : String} (hnd : (u.map (·.1)).Nodup) (h : (n, e) ∈ u) :
    ((u.map (fun p => (⟨some p.2, p.1⟩ : Slot)) ++ List.replicate k empty).find? fun x => x.sig == n) = some ⟨some e, n⟩ := by
  induction u with
  | nil => cases h
  | cons p u ih =>
      rw [List.map_cons, List.nodup_cons] at hnd
      rw [List.map_cons, List.cons_append]
      by_cases hp : p.1 = n
      · have hpe : p = (n, e) := by
          rcases List.mem_cons.1 h with h | h
          · exact h.symm
          · exact absurd (List.mem_map.2 ⟨(n, e), h, rfl⟩) (by rw [← hp]; exact hnd.1)
        subst hpe
        simp
      · rw [List.find?_cons_of_neg (by simpa using hp)]
        refine ih hnd.2 ?_
        rcases List.mem_cons.1 h with h | h
        · exact absurd (by rw [← h]) hp
        · exact h

theorem thrown_mem {s : St} {u : List (Nat × String)} (hu : Holds s.tab u) {n : Nat} {e : String} (h : (n, e) ∈ u) :
    thrown s n = some e := by
  unfold thrown
  rw [hu.2.2.2, find_mem hu.1 h]
  rfl

/-- Where `ex_signal` puts a signal that the table holds. -/
theorem slotFor_old {u : List (Nat × String)} {k : Nat} (hnd : (u.map (·.1)).Nodup) {n : Nat} {e : String} (h : (n, e) ∈ u) :
    ∃ i, i < u.length ∧ slotFor (u.map (fun p => (⟨some p.2, p.1⟩ : Slot)) ++ List.replicate k empty) n = i ∧
      u[i]? = some (n, e) := by
  induction u with
  | nil => cases h
  | cons p u ih =>
      rw [List.map_cons, List.nodup_cons] at hnd
      unfold slotFor
      rw [List.map_cons, List.cons_append, List.findIdx_cons]
      by_cases hp : p.1 = n
      · have hpe : p = (n, e) := by
          rcases List.mem_cons.1 h with h | h
          · exact h.symm
          · exact absurd (List.mem_map.2 ⟨(n, e), h, rfl⟩) (by rw [← hp]; exact hnd.1)
        subst hpe
        exact ⟨0, by simp, by simp, by simp⟩
      · have h' : (n, e) ∈ u := by
          rcases List.mem_cons.1 h with h | h
          · exact absurd (by rw [← h]) hp
          · exact h
        obtain ⟨i, hi, hs, hg⟩ := ih hnd.2 h'
        refine ⟨i + 1, by simpa using hi, ?_, by simpa using hg⟩
        unfold slotFor at hs
        have : (p.1 == n) = false := by simpa using hp
        simp [this, hs]

/-- Where `ex_signal` puts a new signal. -/
theorem slotFor_new {u : List (Nat × String)} {k : Nat} {n : Nat} (h : ∀ p ∈ u, p.1 ≠ n) :
    slotFor (u.map (fun p => (⟨some p.2, p.1⟩ : Slot)) ++ List.replicate k empty) n = u.length := by
  induction u with
  | nil =>
      unfold slotFor
      cases k with
      | zero => rfl
      | succ k => simp [List.replicate_succ, List.findIdx_cons, empty]
  | cons p u ih =>
      have := ih fun q hq => h q (List.mem_cons_of_mem _ hq)
      unfold slotFor at this ⊢
      have hp : (p.1 == n) = false := by simpa using h p (List.mem_cons_self ..)
      rw [List.map_cons, List.cons_append, List.findIdx_cons]
      simp [hp, this]

theorem set_old {u : List (Nat × String)} {k i : Nat} {n : Nat} {e : String} (hg : u[i]? = some (n, e)) :
    (u.map (fun p => (⟨some p.2, p.1⟩ : Slot)) ++ List.replicate k empty).set i ⟨some e, n⟩
      = u.map (fun p => (⟨some p.2, p.1⟩ : Slot)) ++ List.replicate k empty := by
  have hi : i < u.length := (List.getElem?_eq_some_iff.1 hg).1
  have hv : u[i] = (n, e) := (List.getElem?_eq_some_iff.1 hg).2
  rw [List.set_append_left _ _ (by simpa using hi)]
  congr 1
  apply List.ext_getElem?
  intro j
  rw [List.getElem?_set]
  by_cases hj : i = j
  · subst hj
    simp [hi, hv]
  · simp [hj]

theorem set_new {u : List (Nat × String)} {k : Nat} {x : Slot} :
    (u.map (fun p => (⟨some p.2, p.1⟩ : Slot)) ++ List.replicate (k + 1) empty).set u.length x
      = u.map (fun p => (⟨some p.2, p.1⟩ : Slot)) ++ x :: List.replicate k empty := by
  rw [List.set_append_right _ _ (by simp)]
  simp [List.replicate_succ]

/-- Registering a signal under the name it has, or a new one while there is room. -/
theorem exSignal_holds {s : St} {u : List (Nat × String)} (hu : Holds s.tab u) {n : Nat} {e : String} (hv : valid n = true)
    (hroom : (n, e) ∈ u ∨ ((∀ p ∈ u, p.1 ≠ n) ∧ u.length < maxSig)) :
    ∃ u', Holds (exSignal s n e).tab u' ∧ (∀ q, q ∈ u' ↔ q = (n, e) ∨ q ∈ u) ∧ (exSignal s n e).set = true ∧
      (exSignal s n e).disp = put s.disp n .ex := by
  obtain ⟨hnd, hlen, hval, ht⟩ := hu
  rcases hroom with h | ⟨hnew, hlt⟩
  · obtain ⟨i, hi, hs, hg⟩ := slotFor_old (k := maxSig - u.length) hnd h
    rw [← ht] at hs
    have hne : slotFor s.tab n ≠ maxSig := by omega
    unfold exSignal
    rw [if_neg hne, if_pos hv]
    refine ⟨u, ⟨hnd, hlen, hval, ?_⟩, ?_, rfl, rfl⟩
    · show s.tab.set (slotFor s.tab n) ⟨some e, n⟩ = _
      rw [hs, ht]
      exact set_old hg
    · intro q
      constructor
      · exact Or.inr
      · rintro (rfl | hq)
        · exact h
        · exact hq
  · have hs := slotFor_new (k := maxSig - u.length) hnew
    rw [← ht] at hs
    have hne : slotFor s.tab n ≠ maxSig := by omega
    unfold exSignal
    rw [if_neg hne, if_pos hv]
    refine ⟨u ++ [(n, e)], ⟨?_, ?_, ?_, ?_⟩, ?_, rfl, rfl⟩
    · rw [List.map_append]
      refine List.Nodup.append hnd (by simp) ?_
      intro a ha hb
      obtain ⟨p, hp, rfl⟩ := List.mem_map.1 ha
      exact hnew p hp (by simpa using hb)
    · simp
      omega
    · intro p hp
      rcases List.mem_append.1 hp with hp | hp
      · exact hval p hp
      · rw [List.mem_singleton.1 hp]
        exact hv
    · show s.tab.set (slotFor s.tab n) ⟨some e, n⟩ = _
      rw [hs, ht]
      obtain ⟨k, hk⟩ : ∃ k, maxSig - u.length = k + 1 := ⟨maxSig - u.length - 1, by omega⟩
      have hk' : maxSig - (u ++ [(n, e)]).length = k := by simp; omega
      rw [hk, hk', set_new]
      simp
    · intro q
      simp only [List.mem_append, List.mem_singleton]
      exact or_comm

theorem std_nodup : (std.map (·.1)).Nodup := by decide

theorem std_valid : ∀ p ∈ std, valid p.1 = true := by decide

/-- A part of the standard table is no longer than it. -/
theorem sub_len {u : List (Nat × String)} (hnd : (u.map (·.1)).Nodup) (hsub : ∀ p ∈ u, p ∈ std) : u.length ≤ 13 := by
  have hnd' : u.Nodup := List.Nodup.of_map _ hnd
  exact (List.subperm_of_subset hnd' fun p hp => hsub p hp).length_le

theorem std_unique {p q : Nat × String} (hp : p ∈ std) (hq : q ∈ std) (h : p.1 = q.1) : p = q :=
  List.inj_on_of_nodup_map std_nodup hp hq h

/-- The invariant of programs that use the public functions. -/
def Inv (s : St) : Prop :=
  ∃ u, Holds s.tab u ∧ (∀ p ∈ u, p ∈ std) ∧ ∀ n, s.disp n = .ex → ∃ e, (n, e) ∈ u

theorem setup_loop (l : List (Nat × String)) (hl : ∀ p ∈ l, p ∈ std) (s : St) (u : List (Nat × String)) (hu : Holds s.tab u)
    (hsub : ∀ p ∈ u, p ∈ std) (hd : ∀ n, s.disp n = .ex → ∃ e, (n, e) ∈ u) :
    ∃ u', Holds (l.foldl (fun s p => exSignal s p.1 p.2) s).tab u' ∧ (∀ q, q ∈ u' ↔ q ∈ l ∨ q ∈ u) ∧
      (∀ n, (l.foldl (fun s p => exSignal s p.1 p.2) s).disp n = if n ∈ l.map (·.1) then .ex else s.disp n) ∧
      (l ≠ [] → (l.foldl (fun s p => exSignal s p.1 p.2) s).set = true) := by
  induction l generalizing s u with
  | nil => exact ⟨u, hu, by simp, by simp, by simp⟩
  | cons p l ih =>
      have hp := hl p (List.mem_cons_self ..)
      have hroom : (p.1, p.2) ∈ u ∨ ((∀ q ∈ u, q.1 ≠ p.1) ∧ u.length < maxSig) := by
        by_cases h : p ∈ u
        · exact Or.inl h
        · right
          refine ⟨fun q hq hqp => h (std_unique (hsub q hq) hp hqp ▸ hq), ?_⟩
          have := sub_len hu.1 hsub
          unfold maxSig
          omega
      obtain ⟨u1, h1, hm1, hs1, hd1⟩ := exSignal_holds hu (std_valid p hp) hroom
      rw [List.foldl_cons]
      have hsub1 : ∀ q ∈ u1, q ∈ std := by
        intro q hq
        rcases (hm1 q).1 hq with rfl | hq
        · exact hp
        · exact hsub q hq
      have hd1' : ∀ n, (exSignal s p.1 p.2).disp n = .ex → ∃ e, (n, e) ∈ u1 := by
        intro n hn
        rw [hd1] at hn
        by_cases h : n = p.1
        · subst h
          exact ⟨p.2, (hm1 _).2 (Or.inl rfl)⟩
        · simp only [put, if_neg h] at hn
          obtain ⟨e, he⟩ := hd n hn
          exact ⟨e, (hm1 _).2 (Or.inr he)⟩
      obtain ⟨u', hu', hm', hd', hs'⟩ := ih (fun q hq => hl q (List.mem_cons_of_mem _ hq)) _ u1 h1 hsub1 hd1'
      refine ⟨u', hu', ?_, ?_, ?_⟩
      · intro q
        rw [hm', hm1]
        simp only [List.mem_cons]
        constructor
        · rintro (h | h | h)
          · exact Or.inl (Or.inr h)
          · exact Or.inl (Or.inl h)
          · exact Or.inr h
        · rintro ((h | h) | h)
          · exact Or.inr (Or.inl h)
          · exact Or.inl h
          · exact Or.inr (Or.inr h)
      · intro n
        rw [hd', hd1]
        by_cases h : n ∈ l.map (·.1)
        · simp [h]
        · by_cases hn : n = p.1
          · simp [hn, put]
          · rw [if_neg h, if_neg (by simpa [hn] using h)]
            simp [put, hn]
      · intro _
        cases l with
        | nil => exact hs1
        | cons q l => exact hs' (by simp)

theorem reset_loop (l : List Nat) (s : St) (hl : ∀ n ∈ l, valid n = true) :
    (l.foldl exReset s).tab = s.tab ∧ (∀ n, (l.foldl exReset s).disp n = if n ∈ l then .dfl else s.disp n) ∧
      (l ≠ [] → (l.foldl exReset s).set = false) := by
  induction l generalizing s with
  | nil => simp
  | cons a l ih =>
      have ha := hl a (List.mem_cons_self ..)
      obtain ⟨h1, h2, h3⟩ := ih (exReset s a) fun n hn => hl n (List.mem_cons_of_mem _ hn)
      rw [List.foldl_cons]
      refine ⟨?_, ?_, ?_⟩
      · rw [h1]
        simp [exReset, ha]
      · intro n
        rw [h2]
        by_cases h : n ∈ l
        · simp [h]
        · by_cases hn : n = a
          · simp [hn, exReset, ha, put]
          · simp [h, hn, exReset, ha, put]
      · intro _
        cases l with
        | nil => simp [exReset, ha]
        | cons b l => exact h3 (by simp)

theorem default_eq (s : St) :
    (default s).tab = s.tab ∧
      (∀ n, (default s).disp n = if n ∈ [11, 6, 8, 4, 2, 15, 3, 1, 28, 5, 14, 7] then .dfl else s.disp n) ∧
      (default s).set = false := by
  obtain ⟨h1, h2, h3⟩ := reset_loop [11, 6, 8, 4, 2, 15, 3, 1, 28, 5, 14, 7] s (by decide)
  exact ⟨h1, h2, h3 (by simp)⟩

theorem init_inv : Inv init :=
  ⟨[], ⟨by simp, by simp [maxSig], by simp, by simp [init]⟩, by simp, by simp [init]⟩

theorem put_ex {f : Nat → Disp} {n m : Nat} {d : Disp} (hd : d ≠ .ex) (h : put f n d m = .ex) : f m = .ex := by
  unfold put at h
  split at h
  · exact absurd h hd
  · exact h

theorem step_inv {s : St} (h : Inv s) (op : Op) : Inv (step s op) := by
  obtain ⟨u, hu, hsub, hd⟩ := h
  cases op with
  | try_ =>
      simp only [step, setup]
      split
      · exact ⟨u, hu, hsub, hd⟩
      · obtain ⟨u', hu', hm, hd', -⟩ := setup_loop std (fun _ h => h) s u hu hsub hd
        refine ⟨u', hu', ?_, ?_⟩
        · intro p hp
          rcases (hm p).1 hp with h | h
          · exact h
          · exact hsub p h
        · intro n hn
          rw [hd'] at hn
          split at hn
          · rename_i hmem
            obtain ⟨p, hp, rfl⟩ := List.mem_map.1 hmem
            exact ⟨p.2, (hm _).2 (Or.inl hp)⟩
          · obtain ⟨e, he⟩ := hd n hn
            exact ⟨e, (hm _).2 (Or.inr he)⟩
  | default =>
      obtain ⟨h1, h2, -⟩ := default_eq s
      refine ⟨u, by rw [step, h1]; exact hu, hsub, ?_⟩
      intro n hn
      rw [step, h2] at hn
      split at hn
      · cases hn
      · exact hd n hn
  | add m =>
      simp only [step]
      split
      · exact ⟨u, hu, hsub, fun n hn => hd n (put_ex (by decide) hn)⟩
      · exact ⟨u, hu, hsub, hd⟩
  | del m =>
      simp only [step]
      split
      · exact ⟨u, hu, hsub, fun n hn => hd n (put_ex (by decide) hn)⟩
      · exact ⟨u, hu, hsub, hd⟩

theorem run_inv (ops : List Op) : Inv (run ops) := by
  unfold run
  generalize hs : init = s
  have h : Inv s := hs ▸ init_inv
  clear hs
  induction ops generalizing s with
  | nil => exact h
  | cons op ops ih => exact ih _ (step_inv h op)

theorem run_append (a b : List Op) : run (a ++ b) = b.foldl step (run a) := List.foldl_append ..

/-- After a `try` that has set up the handlers, each standard signal has `ex_handler`. -/
theorem setup_fresh {s : St} (h : Inv s) (hs : s.set = false) {n : Nat} {e : String} (hp : (n, e) ∈ std) :
    arrive (setup s) n = .throws (some e) := by
  obtain ⟨u, hu, hsub, hd⟩ := h
  obtain ⟨u', hu', hm, hd', -⟩ := setup_loop std (fun _ h => h) s u hu hsub hd
  have hset : setup s = std.foldl (fun s p => exSignal s p.1 p.2) s := by simp [setup, hs]
  unfold arrive
  rw [hset, hd', if_pos (List.mem_map.2 ⟨(n, e), hp, rfl⟩)]
  show Effect.throws (thrown _ n) = _
  rw [thrown_mem hu' ((hm _).2 (Or.inl hp))]

theorem setup_set (s : St) : Inv s → (setup s).set = true := by
  rintro ⟨u, hu, hsub, hd⟩
  unfold setup
  split
  · assumption
  · obtain ⟨-, -, -, -, h⟩ := setup_loop std (fun _ h => h) s u hu hsub hd
    exact h (by simp [std])

/-! ## Properties -/

/-- The signals and exceptions of the documentation. -/
def documented (sig : Nat) (ex : String) : Prop :=
  (sig, ex) ∈ [(1, "sig_hup"), (2, "sig_int"), (3, "sig_quit"), (4, "sig_ill"), (5, "sig_trap"), (6, "sig_abrt"), (7, "sig_bus"),
    (8, "sig_fpe"), (11, "sig_segv"), (13, "sig_pipe"), (14, "sig_alrm"), (15, "sig_term"), (28, "sig_winch")]

instance (sig : Nat) (ex : String) : Decidable (documented sig ex) := inferInstanceAs (Decidable (_ ∈ _))

theorem documented_iff (sig : Nat) (ex : String) : documented sig ex ↔ (sig, ex) ∈ std := by
  unfold documented std
  simp only [List.mem_cons, List.not_mem_nil, or_false]
  constructor <;> (rintro (h | h | h | h | h | h | h | h | h | h | h | h | h) <;> simp [h])

/-- **C117.**  Whatever a program did before with `try`, `ex_signal_default` and signals of the event loop: a signal that arrives
and throws an exception throws the one documented for it, never one without a name. -/
theorem signal_right_exception (ops : List Op) (sig : Nat) (ex : Option String) (h : arrive (run ops) sig = .throws ex) :
    ∃ e, ex = some e ∧ documented sig e := by
  obtain ⟨u, hu, hsub, hd⟩ := run_inv ops
  unfold arrive at h
  split at h
  · cases h
  · rename_i hdisp
    obtain ⟨e, he⟩ := hd sig hdisp
    refine ⟨e, ?_, (documented_iff _ _).2 (hsub _ he)⟩
    have := thrown_mem hu he
    injection h with h
    rw [← h, this]
  · cases h

example : arrive (run [.try_, .default, .add 2, .try_, .del 15]) 11 = .throws (some "sig_segv") := by decide +kernel

/-- The event loop does not touch the signal in these steps. -/
def Untouched (sig : Nat) (ops : List Op) : Prop := Op.add sig ∉ ops ∧ Op.del sig ∉ ops

instance (sig : Nat) (ops : List Op) : Decidable (Untouched sig ops) := inferInstanceAs (Decidable (_ ∧ _))

/-- Steps that leave a caught signal caught. -/
theorem kept {s : St} {sig : Nat} (ops : List Op) (hi : Inv s) (hd : s.disp sig = .ex) (hu : Untouched sig ops)
    (hdef : Op.default ∉ ops) :
    Inv (ops.foldl step s) ∧ (ops.foldl step s).disp sig = .ex := by
  induction ops generalizing s with
  | nil => exact ⟨hi, hd⟩
  | cons op ops ih =>
      have hu' : Untouched sig ops :=
        ⟨fun h => hu.1 (List.mem_cons_of_mem _ h), fun h => hu.2 (List.mem_cons_of_mem _ h)⟩
      have hdef' : Op.default ∉ ops := fun h => hdef (List.mem_cons_of_mem _ h)
      rw [List.foldl_cons]
      refine ih (step_inv hi op) ?_ hu' hdef'
      cases op with
      | try_ =>
          simp only [step, setup]
          split
          · exact hd
          · obtain ⟨u, hu1, hsub1, hd1⟩ := hi
            obtain ⟨-, -, -, hd', -⟩ := setup_loop std (fun _ h => h) s u hu1 hsub1 hd1
            rw [hd']
            split
            · rfl
            · exact hd
      | default => exact absurd (List.mem_cons_self ..) hdef
      | add m =>
          have hm : sig ≠ m := fun h => hu.1 (by rw [h]; exact List.mem_cons_self ..)
          simp only [step]
          split
          · simp [put, hm, hd]
          · exact hd
      | del m =>
          have hm : sig ≠ m := fun h => hu.2 (by rw [h]; exact List.mem_cons_self ..)
          simp only [step]
          split
          · simp [put, hm, hd]
          · exact hd

/-- The flag is set only by a `try`, and stays set until `ex_signal_default`. -/
theorem set_false {s : St} (ops : List Op) (hs : s.set = false) (ht : Op.try_ ∉ ops) : (ops.foldl step s).set = false := by
  induction ops generalizing s with
  | nil => exact hs
  | cons op ops ih =>
      have ht' : Op.try_ ∉ ops := fun h => ht (List.mem_cons_of_mem _ h)
      rw [List.foldl_cons]
      refine ih ?_ ht'
      cases op with
      | try_ => exact absurd (List.mem_cons_self ..) ht
      | default => exact (default_eq s).2.2
      | add m => simp only [step]; split <;> exact hs
      | del m => simp only [step]; split <;> exact hs

/-- The first `try` of the program, or the first one after `ex_signal_default`, in the history before. -/
def FirstTry (before : List Op) : Prop :=
  Op.try_ ∉ before ∨ ∃ a b, before = a ++ Op.default :: b ∧ Op.try_ ∉ b

theorem firstTry_set {before : List Op} (h : FirstTry before) : (run before).set = false := by
  rcases h with h | ⟨a, b, rfl, hb⟩
  · exact set_false before rfl h
  · rw [run_append, List.foldl_cons]
    exact set_false b (default_eq _).2.2 hb

/-- **C118.**  From the first `try`, `guard`, task or scope of the program on, or the first after `ex_signal_default`, each
documented signal throws its exception, until `ex_signal_default` is called or the event loop is asked to listen or to stop
listening to that signal.  (Partial: a signal that the event loop listened to and released is not caught again,
`signal_lost_after_events`.) -/
theorem signal_caught_partial (before after : List Op) (sig : Nat) (ex : String) (hdoc : documented sig ex)
    (hfirst : FirstTry before) (hdef : Op.default ∉ after) (hu : Untouched sig after) :
    arrive (run (before ++ Op.try_ :: after)) sig = .throws (some ex) := by
  have hstd := (documented_iff _ _).1 hdoc
  have hb := run_inv before
  have hfresh := setup_fresh hb (firstTry_set hfirst) hstd
  have hdisp : (setup (run before)).disp sig = .ex := by
    unfold arrive at hfresh
    split at hfresh
    · cases hfresh
    · assumption
    · cases hfresh
  rw [run_append, List.foldl_cons]
  obtain ⟨hi, hd⟩ := kept after (step_inv hb .try_) hdisp hu hdef
  have harr : arrive (after.foldl step (step (run before) .try_)) sig
      = .throws (thrown (after.foldl step (step (run before) .try_)) sig) := by
    unfold arrive
    rw [hd]
  rw [harr]
  obtain ⟨u, hu1, hsub1, hd1⟩ := hi
  obtain ⟨e, he⟩ := hd1 sig hd
  have : (sig, e) = (sig, ex) := std_unique (hsub1 _ he) hstd rfl
  rw [thrown_mem hu1 he]
  injection this with _ h
  rw [h]

example : FirstTry [.add 2, .try_, .default, .add 15] ∧ documented 2 "sig_int" ∧ Untouched 2 [.add 10, .try_] := by
  refine ⟨Or.inr ⟨[.add 2, .try_], [.add 15], rfl, by decide⟩, by decide, by decide⟩

/-- **C118, negation.**  Once handlers are set up, a signal that the event loop listened to and released has the default action
(for SIGINT: the end of the program) in every `try` statement that follows. -/
theorem signal_lost_after_events (before : List Op) (sig : Nat) (hv : valid sig = true) (k : Nat) :
    arrive (run (before ++ [.try_, .add sig, .del sig] ++ List.replicate k .try_)) sig = .default := by
  have hset : (run (before ++ [.try_, .add sig, .del sig])).set = true := by
    rw [run_append]
    simp only [List.foldl_cons, List.foldl_nil, step, hv, if_true]
    exact setup_set _ (run_inv before)
  have hdisp : (run (before ++ [.try_, .add sig, .del sig])).disp sig = .dfl := by
    rw [run_append]
    simp [step, hv, put]
  have : ∀ k s, s.set = true → (List.replicate k Op.try_).foldl step s = s := by
    intro k
    induction k with
    | zero => intro s _; rfl
    | succ k ih =>
        intro s hs
        rw [List.replicate_succ, List.foldl_cons]
        have : step s .try_ = s := by simp [step, setup, hs]
        rw [this]
        exact ih s hs
  rw [run_append, this k _ hset]
  unfold arrive
  rw [hdisp]

example : valid 2 = true := by decide

/-- **C119.**  After `ex_signal_default` each documented signal except SIGPIPE has the default action, whatever happened before.
(Partial: SIGPIPE keeps throwing, `default_keeps_sigpipe`, and the next `try` undoes it all, `default_undone`.) -/
theorem default_restores_partial (before : List Op) (sig : Nat) (ex : String) (hdoc : documented sig ex) (hp : sig ≠ sigpipe) :
    arrive (run (before ++ [.default])) sig = .default := by
  have hmem : sig ∈ [11, 6, 8, 4, 2, 15, 3, 1, 28, 5, 14, 7] := by
    unfold documented at hdoc
    simp only [List.mem_cons, List.not_mem_nil, or_false, Prod.mk.injEq] at hdoc ⊢
    unfold sigpipe at hp
    omega
  rw [run_append]
  show arrive (default (run before)) sig = _
  unfold arrive
  rw [(default_eq _).2.1, if_pos hmem]

example : documented 2 "sig_int" ∧ 2 ≠ sigpipe := by decide

/-- **C119, negation.**  A SIGPIPE that throws goes on throwing after `ex_signal_default`. -/
theorem default_keeps_sigpipe (before : List Op) (h : arrive (run before) sigpipe = .throws (some "sig_pipe")) :
    arrive (run (before ++ [.default])) sigpipe = .throws (some "sig_pipe") := by
  rw [run_append]
  show arrive (default (run before)) sigpipe = _
  obtain ⟨h1, h2, -⟩ := default_eq (run before)
  have : (default (run before)).disp sigpipe = (run before).disp sigpipe := by
    rw [h2, if_neg (by decide)]
  unfold arrive thrown at h ⊢
  rw [this, h1]
  exact h

example : arrive (run [.try_]) sigpipe = .throws (some "sig_pipe") := by decide +kernel

/-- **C119, negation.**  The next `try` after `ex_signal_default` makes every documented signal throw again. -/
theorem default_undone (before : List Op) (sig : Nat) (ex : String) (hdoc : documented sig ex) :
    arrive (run (before ++ [.default, .try_])) sig = .throws (some ex) := by
  have := signal_caught_partial (before ++ [.default]) [] sig ex hdoc (Or.inr ⟨before, [], by simp, by simp⟩) (by simp)
    ⟨by simp, by simp⟩
  simpa using this

/-- Steps that leave a signal with the event loop. -/
theorem kept_ev {s : St} {sig : Nat} (ops : List Op) (hi : Inv s) (hd : s.disp sig = .ev) (hdel : Op.del sig ∉ ops)
    (hsafe : (∀ e, ¬documented sig e) ∨ (s.set = true ∧ Op.default ∉ ops)) : (ops.foldl step s).disp sig = .ev := by
  induction ops generalizing s with
  | nil => exact hd
  | cons op ops ih =>
      have hdel' : Op.del sig ∉ ops := fun h => hdel (List.mem_cons_of_mem _ h)
      have hs' : ∀ s' : St, s'.set = s.set → (∀ e, ¬documented sig e) ∨ (s'.set = true ∧ Op.default ∉ ops) := by
        intro s' he
        rcases hsafe with h | ⟨h, h'⟩
        · exact Or.inl h
        · exact Or.inr ⟨by rw [he, h], fun h => h' (List.mem_cons_of_mem _ h)⟩
      rw [List.foldl_cons]
      cases op with
      | try_ =>
          by_cases hset : s.set = true
          · have hst : step s .try_ = s := by simp [step, setup, hset]
            rw [hst]
            exact ih hi hd hdel' (hs' s rfl)
          · have hnd : ∀ e, ¬documented sig e := by
              rcases hsafe with h | ⟨h, -⟩
              · exact h
              · exact absurd h hset
            refine ih (step_inv hi .try_) ?_ hdel' (Or.inl hnd)
            obtain ⟨u, hu1, hsub1, hd1⟩ := hi
            obtain ⟨-, -, -, hd', -⟩ := setup_loop std (fun _ h => h) s u hu1 hsub1 hd1
            have hst : step s .try_ = std.foldl (fun s p => exSignal s p.1 p.2) s := by simp [step, setup, hset]
            rw [hst, hd', if_neg ?_]
            · exact hd
            · intro hmem
              obtain ⟨p, hp, rfl⟩ := List.mem_map.1 hmem
              exact hnd p.2 ((documented_iff _ _).2 hp)
      | default =>
          have hnd : ∀ e, ¬documented sig e := by
            rcases hsafe with h | ⟨-, h⟩
            · exact h
            · exact absurd (List.mem_cons_self ..) h
          refine ih (step_inv hi .default) ?_ hdel' (Or.inl hnd)
          show (default s).disp sig = .ev
          rw [(default_eq s).2.1, if_neg ?_]
          · exact hd
          · intro hmem
            simp only [List.mem_cons, List.not_mem_nil, or_false] at hmem
            have : ∃ e, documented sig e := by
              rcases hmem with h | h | h | h | h | h | h | h | h | h | h | h <;> subst h
              · exact ⟨"sig_segv", by decide⟩
              · exact ⟨"sig_abrt", by decide⟩
              · exact ⟨"sig_fpe", by decide⟩
              · exact ⟨"sig_ill", by decide⟩
              · exact ⟨"sig_int", by decide⟩
              · exact ⟨"sig_term", by decide⟩
              · exact ⟨"sig_quit", by decide⟩
              · exact ⟨"sig_hup", by decide⟩
              · exact ⟨"sig_winch", by decide⟩
              · exact ⟨"sig_trap", by decide⟩
              · exact ⟨"sig_alrm", by decide⟩
              · exact ⟨"sig_bus", by decide⟩
            exact hnd _ this.choose_spec
      | add m =>
          refine ih (step_inv hi _) ?_ hdel' (hs' _ (by simp only [step]; split <;> rfl))
          simp only [step]
          split
          · simp only [put]
            split
            · rfl
            · exact hd
          · exact hd
      | del m =>
          have hm : sig ≠ m := fun h => hdel (by rw [h]; exact List.mem_cons_self ..)
          refine ih (step_inv hi _) ?_ hdel' (hs' _ (by simp only [step]; split <;> rfl))
          simp only [step]
          split
          · simp [put, hm, hd]
          · exact hd

/-- **C120.**  A signal given to the event loop goes to its callback until it is removed, if it is none of the documented ones, or
if some `try`, task or scope began before and `ex_signal_default` is not called between that and now.  (Partial: otherwise the
next `try` takes the signal away, `events_signal_stolen`.) -/
theorem events_signal_kept_partial (before after : List Op) (sig : Nat) (hv : valid sig = true) (hdel : Op.del sig ∉ after)
    (hsafe : (∀ e, ¬documented sig e) ∨
      ∃ a b, before = a ++ Op.try_ :: b ∧ Op.default ∉ b ∧ Op.default ∉ after) :
    arrive (run (before ++ Op.add sig :: after)) sig = .event := by
  have hb := run_inv before
  have hd : (step (run before) (.add sig)).disp sig = .ev := by simp [step, hv, put]
  have hset : (∀ e, ¬documented sig e) ∨ ((step (run before) (.add sig)).set = true ∧ Op.default ∉ after) := by
    rcases hsafe with h | ⟨a, b, rfl, hb', ha⟩
    · exact Or.inl h
    · right
      refine ⟨?_, ha⟩
      have h1 : (step (run (a ++ Op.try_ :: b)) (.add sig)).set = (run (a ++ Op.try_ :: b)).set := by simp [step, hv]
      rw [h1, run_append, List.foldl_cons]
      have h2 := setup_set _ (run_inv a)
      have : ∀ (b : List Op) (s : St), Inv s → s.set = true → Op.default ∉ b → (b.foldl step s).set = true := by
        intro b
        induction b with
        | nil => intro s _ h _; exact h
        | cons op b ih =>
            intro s hi h hn
            rw [List.foldl_cons]
            refine ih _ (step_inv hi op) ?_ fun h => hn (List.mem_cons_of_mem _ h)
            cases op with
            | try_ => exact setup_set _ hi
            | default => exact absurd (List.mem_cons_self ..) hn
            | add m => simp only [step]; split <;> exact h
            | del m => simp only [step]; split <;> exact h
      exact this b _ (step_inv (run_inv a) .try_) h2 hb'
  rw [run_append, List.foldl_cons]
  have := kept_ev after (step_inv hb (.add sig)) hd hdel hset
  unfold arrive
  rw [this]

example : (∀ e, ¬documented 10 e) ∧ valid 10 = true := by
  refine ⟨fun e => ?_, by decide⟩
  unfold documented
  simp

/-- **C120, negation.**  A documented signal (SIGINT, SIGTERM, …) that the event loop listens to before the first `try`, task or
scope of the program does not reach its callback after it: the signal throws an exception there. -/
theorem events_signal_stolen (before : List Op) (sig : Nat) (ex : String) (hdoc : documented sig ex) (hfirst : Op.try_ ∉ before) :
    arrive (run (before ++ [.add sig])) sig = .event ∧
      arrive (run (before ++ [.add sig, .try_])) sig = .throws (some ex) := by
  have hv := std_valid _ ((documented_iff _ _).1 hdoc)
  constructor
  · rw [run_append]
    unfold arrive
    have : (List.foldl step (run before) [Op.add sig]).disp sig = .ev := by
      have hv' : valid sig = true := hv
      simp [step, hv', put]
    rw [this]
  · have := signal_caught_partial (before ++ [.add sig]) [] sig ex hdoc
      (Or.inl (by simp [hfirst])) (by simp) ⟨by simp, by simp⟩
    simpa using this

example : documented 2 "sig_int" ∧ Op.try_ ∉ [Op.add 15] := by decide

end Verif.Except.Signals
