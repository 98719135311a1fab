import Verif.Mem
import Mathlib.Logic.Function.Basic
import Mathlib.Data.List.TakeWhile
import Mathlib.Data.List.Basic

/-!
# Names of the machine (`src/async_tls.c` 37-39, 811-843), C263

`events_hostname`, `events_uname` and `events_sysname` fill static buffers when they are first called and return pointers to them.
`n` is `MAXHOSTNAMELEN`: 256 by include/async_tls.h:23-25 unless a system header defines it before (64 in `sys/param.h` of Linux, which
the project includes on other Unix systems only, include/os_unix.h:98-101).  The theorems hold for every `n`.
-/

namespace Verif.Tls.Machine
open Verif

/-! ## Calls of one thread -/

/-- The texts in `events_host`, `events_powered_by` and `events_system_name`. -/
structure St where
  host : Bytes
  powered : Bytes
  sysName : Bytes

/-- What the system says at the time of a call: `gethostname`, and `uname` (`none`: it fails) with the number of processors, as
the text of line 829 and the name of the system. -/
structure Sys where
  name : Bytes
  uname : Option (Bytes × Bytes)

/-- `"localhost"`. -/
def localhost : Bytes := [108, 111, 99, 97, 108, 104, 111, 115, 116]

/-- `snprintf(buf, n, "%s", t)`. -/
def cut (n : Nat) (t : Bytes) : Bytes := t.take (n - 1)

/-- `events_hostname`, src/async_tls.c:811-821.  `gethostname` fails if the name and its terminator do not fit. -/
def hostname (n : Nat) (y : Sys) (s : St) : St × Bytes :=
  if s.host = [] then
    let h := if y.name.length < n then y.name else cut n localhost
    ({ s with host := h }, h)
  else (s, s.host)

/-- Line 829: the description is written, the name of the system not yet. -/
def fillPowered (n : Nat) (t : Bytes) (s : St) : St := { s with powered := cut n t }

/-- Line 832.  The buffer is as long as the field it is copied from (line 39), so nothing is cut off. -/
def fillSysName (k : Bytes) (s : St) : St := { s with sysName := k }

/-- `events_uname`, src/async_tls.c:823-836.  `none` is a null pointer. -/
def uname (n : Nat) (y : Sys) (s : St) : St × Option Bytes :=
  if s.powered = [] then
    match y.uname with
    | none => (s, none)
    | some (t, k) =>
      let s' := fillSysName k (fillPowered n t s)
      (s', some s'.powered)
  else (s, some s.powered)

/-- `events_sysname`, src/async_tls.c:838-843. -/
def sysname (n : Nat) (y : Sys) (s : St) : St × Bytes :=
  let s' := if s.sysName = [] then (uname n y s).1 else s
  (s', s'.sysName)

inductive Call where
  | hostname
  | uname
  | sysname
  deriving DecidableEq

/-- The text a call returns. -/
def call (n : Nat) (y : Sys) (s : St) : Call → St × Option Bytes
  | .hostname => ((hostname n y s).1, some (hostname n y s).2)
  | .uname => uname n y s
  | .sysname => ((sysname n y s).1, some (sysname n y s).2)

/-- The state after calls made while the system says this and that. -/
def calls (n : Nat) (s : St) (l : List (Sys × Call)) : St := l.foldl (fun s x => (call n x.1 s x.2).1) s

def init : St := ⟨[], [], []⟩

/-! ### Specification -/

/-- What a call should return. -/
def right (y : Sys) : Call → Option Bytes
  | .hostname => some y.name
  | .uname => y.uname.map (·.1)
  | .sysname => y.uname.map (·.2)

/-- All names are there and fit. -/
def Fits (n : Nat) (y : Sys) : Prop :=
  y.name ≠ [] ∧ y.name.length < n ∧ ∃ t k, y.uname = some (t, k) ∧ t ≠ [] ∧ k ≠ [] ∧ t.length < n

/-! ### Proofs -/

theorem cut_fits {n : Nat} {t : Bytes} (h : t.length < n) : cut n t = t := by
  unfold cut
  exact List.take_of_length_le (by omega)

/-- The buffers are empty or right. -/
def Ok (y : Sys) (s : St) : Prop :=
  (s.host = [] ∨ s.host = y.name) ∧ ((s.powered = [] ∧ s.sysName = []) ∨ y.uname = some (s.powered, s.sysName))

theorem call_ok {n : Nat} {y : Sys} (hf : Fits n y) {s : St} (h : Ok y s) (c : Call) :
    Ok y (call n y s c).1 ∧ (call n y s c).2 = right y c := by
  obtain ⟨h1, h2, t, k, h3, h4, h5, h6⟩ := hf
  have hu : Ok y (uname n y s).1 ∧ (uname n y s).2 = y.uname.map (·.1) ∧
      ((uname n y s).1.sysName = k) := by
    unfold uname
    rcases h.2 with ⟨e1, e2⟩ | e
    · simp only [e1, if_true, h3, fillSysName, fillPowered, cut_fits h6]
      exact ⟨⟨h.1, Or.inr h3⟩, by simp, trivial⟩
    · rw [h3] at e
      simp only [Option.some.injEq, Prod.mk.injEq] at e
      rw [if_neg (by rw [← e.1]; exact h4)]
      exact ⟨h, by simp [h3, e.1], e.2.symm⟩
  cases c with
  | hostname =>
    simp only [call, right, hostname]
    rcases h.1 with e | e
    · simp only [e, if_true, h2]
      exact ⟨⟨Or.inr rfl, h.2⟩, trivial⟩
    · rw [if_neg (by rw [e]; exact h1)]
      exact ⟨h, by rw [e]⟩
  | uname => exact ⟨hu.1, hu.2.1⟩
  | sysname =>
    simp only [call, right, sysname]
    split
    · exact ⟨hu.1, by rw [hu.2.2, h3]; rfl⟩
    · rename_i hn
      refine ⟨h, ?_⟩
      rcases h.2 with ⟨_, e2⟩ | e
      · exact absurd e2 hn
      · rw [e]; rfl

/-- **C263** (full statement: every call returns the name the machine has, complete; false).  What holds: if the names are there,
fit and do not change, every call returns the right one, in any order of calls.
Missing: names that do not fit (`long_host`, `long_uname`), names that change (`renamed`), calls by several threads
(`part_seen`, `sysname_empty`). -/
theorem names_partial (n : Nat) (y : Sys) (hf : Fits n y) (l : List Call) (c : Call) :
    (call n y (calls n init (l.map fun c => (y, c))) c).2 = right y c := by
  have : ∀ (l : List Call) (s : St), Ok y s → Ok y (calls n s (l.map fun c => (y, c))) := by
    intro l
    induction l with
    | nil => exact fun _ h => h
    | cons c l ih => exact fun s h => ih _ (call_ok hf h c).1
  exact (call_ok hf (this l init ⟨Or.inl rfl, Or.inl ⟨rfl, rfl⟩⟩) c).2

/-- The text of src/async_tls.c:828-829, "%zu Cores, %s %s %s", from the digits of the count and three fields. -/
def describe (d sys mach rel : Bytes) : Bytes :=
  d ++ [32, 67, 111, 114, 101, 115, 44, 32] ++ sys ++ [32] ++ mach ++ [32] ++ rel

/-- **C263**: with the buffers of 256 bytes everything Linux can report fits: host names and fields of `uname` have at most 64 bytes
and a 64-bit count at most 20 digits.  Then every call of one thread is right, in any order of calls. -/
theorem fits_linux (h d sys mach rel : Bytes) (h0 : h ≠ []) (s0 : sys ≠ []) (hh : h.length ≤ 64) (hd : d.length ≤ 20)
    (hs : sys.length ≤ 64) (hm : mach.length ≤ 64) (hr : rel.length ≤ 64) (l : List Call) (c : Call) :
    (call 256 ⟨h, some (describe d sys mach rel, sys)⟩
      (calls 256 init (l.map fun c => (⟨h, some (describe d sys mach rel, sys)⟩, c))) c).2 =
      right ⟨h, some (describe d sys mach rel, sys)⟩ c := by
  refine names_partial 256 _ ⟨h0, by simp only; omega, _, _, rfl, by simp [describe], s0, ?_⟩ l c
  simp only [describe, List.length_append, List.length_cons, List.length_nil]
  omega

/-- **C263**, false of the code: a machine whose name does not fit into the buffer is called localhost.  (With 256
bytes this cannot happen on Linux, where names have at most 64 bytes.) -/
theorem long_host (n : Nat) (y : Sys) (hn : 9 < n) (h : n ≤ y.name.length) :
    (hostname n y init).2 = localhost := by
  have hl : localhost.length = 9 := by decide
  simp only [hostname, init, if_true]
  rw [if_neg (by omega)]
  exact cut_fits (by omega)

/-- **C263**, false of the code: a description that does not fit loses its end.  (Where the fields of `uname` can have 255
bytes each this can happen; on Linux see `fits_linux`.) -/
theorem long_uname (n : Nat) (y : Sys) (t k : Bytes) (hy : y.uname = some (t, k)) (hn : 0 < n) (h : n ≤ t.length) :
    (uname n y init).2 = some (t.take (n - 1)) ∧ t.take (n - 1) ≠ t := by
  refine ⟨by simp [uname, init, hy, cut, fillSysName, fillPowered], fun e => ?_⟩
  have := congrArg List.length e
  simp at this
  omega

/-- **C263**, false of the code: after the machine was given another name, the old one is returned for ever. -/
theorem renamed (n : Nat) (y : Sys) (h0 : y.name ≠ []) (h1 : y.name.length < n) (l : List (Sys × Call)) (z : Sys) :
    (hostname n z (calls n (hostname n y init).1 l)).2 = y.name := by
  have hi : (hostname n y init).1.host = y.name := by simp [hostname, init, h1]
  have key : ∀ (l : List (Sys × Call)) (s : St), s.host = y.name → (calls n s l).host = y.name := by
    intro l
    induction l with
    | nil => exact fun _ h => h
    | cons x l ih =>
      intro s h
      refine ih _ ?_
      obtain ⟨w, c⟩ := x
      have hu : (uname n w s).1.host = s.host := by
        unfold uname
        split
        · cases w.uname <;> rfl
        · rfl
      cases c with
      | hostname => simp [call, hostname, h, h0]
      | uname => exact hu.trans h
      | sysname =>
        simp only [call, sysname]
        split
        · exact hu.trans h
        · exact h
  have hk := key l _ hi
  generalize calls n (hostname n y init).1 l = s at hk
  simp [hostname, hk, h0]

/-- **C263**: if `uname` fails, `events_uname` returns a null pointer and `events_sysname` an empty text; the next call asks the
system again. -/
theorem failed_uname (n : Nat) (y : Sys) (hy : y.uname = none) (z : Sys) :
    (uname n y init).2 = none ∧ (sysname n y init).2 = [] ∧
    (uname n z (uname n y init).1) = uname n z init ∧ sysname n z (sysname n y init).1 = sysname n z init := by
  simp [uname, sysname, init, hy]

/-- **C263**, false of the code: while one thread is between the two writes of `events_uname`, `events_sysname` called by another
returns an empty text. -/
theorem sysname_empty (n : Nat) (y z : Sys) (t k : Bytes) (hy : y.uname = some (t, k)) (ht : t ≠ []) (hn : 1 < n) :
    (sysname n z (fillPowered n t init)).2 = [] ∧
    (uname n y init).1 = fillSysName k (fillPowered n t init) := by
  have hc : cut n t ≠ [] := by
    obtain ⟨a, t, rfl⟩ := List.exists_cons_of_ne_nil ht
    obtain ⟨m, rfl⟩ : ∃ m, n = m + 2 := ⟨n - 2, by omega⟩
    simp [cut]
  exact ⟨by simp [sysname, uname, init, fillPowered, hc], by simp [uname, init, hy]⟩

/-! ## Calls of several threads -/

/-- Where a thread stands: it has not called, is about to write byte `i`, or has got its pointer. -/
inductive Pc where
  | out
  | writing (i : Nat)
  | done
  deriving DecidableEq

/-- One buffer, zero at first. -/
structure Shared where
  buf : Nat → UInt8
  pc : Nat → Pc

inductive Ev where
  | call (t : Nat)
  | run (t : Nat)
  deriving DecidableEq

/-- One of the functions when the text is `t`; the system copies byte by byte.  (The terminator is there already.) -/
def stepS (t : Bytes) (s : Shared) : Ev → Shared
  | .call u =>
    if s.pc u = .writing 0 then s
    else match s.pc u with
      | .writing _ => s
      | _ => if s.buf 0 = 0 then { s with pc := Function.update s.pc u (.writing 0) }
        else { s with pc := Function.update s.pc u .done }
  | .run u =>
    match s.pc u with
    | .writing i =>
      match t[i]? with
      | some c => ⟨Function.update s.buf i c, Function.update s.pc u (.writing (i + 1))⟩
      | none => { s with pc := Function.update s.pc u .done }
    | _ => s

def runS (t : Bytes) (s : Shared) (l : List Ev) : Shared := l.foldl (stepS t) s

def initS : Shared := ⟨fun _ => 0, fun _ => .out⟩

/-- The text someone reads who looks at the buffer of `n` bytes now. -/
def seen (n : Nat) (s : Shared) : Bytes := ((List.range n).map s.buf).takeWhile (· ≠ 0)

/-- The first `k` bytes are written. -/
structure InvS (t : Bytes) (s : Shared) (k : Nat) : Prop where
  le : k ≤ t.length
  buf : ∀ i, s.buf i = if i < k then t.getD i 0 else 0
  wr : ∀ u i, s.pc u = .writing i → i ≤ k
  done : ∀ u, s.pc u = .done → 0 < k

theorem stepS_inv {t : Bytes} (h0 : t ≠ []) {s : Shared} {k : Nat} (h : InvS t s k) (e : Ev) :
    ∃ k', k ≤ k' ∧ InvS t (stepS t s e) k' := by
  have hz : s.buf 0 ≠ 0 → 0 < k := by
    intro hb
    by_contra hc
    rw [h.buf 0, if_neg hc] at hb
    exact hb rfl
  have mv : ∀ u p, (∀ i, p = .writing i → i ≤ k) → (p = .done → 0 < k) →
      InvS t { s with pc := Function.update s.pc u p } k := by
    intro u p h1 h2
    refine ⟨h.le, h.buf, fun v i hv => ?_, fun v hv => ?_⟩
    · by_cases e : v = u
      · subst e; simp at hv; exact h1 i hv
      · simp only [Function.update_of_ne e] at hv; exact h.wr v i hv
    · by_cases e : v = u
      · subst e; simp at hv; exact h2 hv
      · simp only [Function.update_of_ne e] at hv; exact h.done v hv
  cases e with
  | call u =>
    refine ⟨k, Nat.le_refl k, ?_⟩
    simp only [stepS]
    split
    · exact h
    · split
      · exact h
      · split
        · exact mv u _ (by simp) (by simp)
        · rename_i hb
          exact mv u _ (by simp) (fun _ => hz hb)
  | run u =>
    cases hp : s.pc u with
    | out => exact ⟨k, Nat.le_refl k, by simp only [stepS, hp]; exact h⟩
    | done => exact ⟨k, Nat.le_refl k, by simp only [stepS, hp]; exact h⟩
    | writing i =>
      have hi := h.wr u i hp
      by_cases hl : i < t.length
      · have ht : t[i]? = some (t.getD i 0) := by simp [hl]
        refine ⟨max k (i + 1), Nat.le_max_left _ _, ?_⟩
        simp only [stepS, hp, ht]
        have hle := h.le
        refine ⟨by omega, fun j => ?_, fun v j hv => ?_, fun v hv => by omega⟩
        · simp only
          by_cases e : j = i
          · subst e; simp
          · rw [Function.update_of_ne e, h.buf j]
            have : j < k ↔ j < max k (i + 1) := by omega
            simp only [this]
        · simp only at hv
          by_cases e : v = u
          · subst e; simp at hv; omega
          · rw [Function.update_of_ne e] at hv
            have := h.wr v j hv
            omega
      · have ht : t[i]? = none := by simp; omega
        refine ⟨k, Nat.le_refl k, ?_⟩
        simp only [stepS, hp, ht]
        have : 0 < t.length := List.length_pos_of_ne_nil h0
        exact mv u _ (by simp) (fun _ => by omega)

theorem runS_inv {t : Bytes} (h0 : t ≠ []) : ∀ (l : List Ev) (s : Shared) (k : Nat), InvS t s k →
    ∃ k', k ≤ k' ∧ InvS t (runS t s l) k'
  | [], _, k, h => ⟨k, Nat.le_refl k, h⟩
  | e :: l, s, k, h => by
    obtain ⟨k1, h1, h2⟩ := stepS_inv h0 h e
    obtain ⟨k2, h3, h4⟩ := runS_inv h0 l _ k1 h2
    exact ⟨k2, Nat.le_trans h1 h3, h4⟩

theorem initS_inv (t : Bytes) : InvS t initS 0 :=
  ⟨Nat.zero_le _, fun _ => by simp [initS], fun _ _ h => by simp [initS] at h, fun _ h => by simp [initS] at h⟩

theorem seen_eq {t : Bytes} (hz : NulFree t) {n : Nat} (hn : t.length < n) {s : Shared} {k : Nat} (h : InvS t s k) :
    seen n s = t.take k := by
  have hle := h.le
  have e : (List.range n).map s.buf = t.take k ++ List.replicate (n - k) 0 := by
    apply List.ext_getElem
    · simp; omega
    · intro i h1 h2
      simp only [List.getElem_map, List.getElem_range]
      rw [h.buf i]
      by_cases hi : i < k
      · rw [if_pos hi, List.getElem_append_left (by simp; omega)]
        simp [show i < t.length by omega]
      · rw [if_neg hi, List.getElem_append_right (by simp; omega)]
        simp
  unfold seen
  rw [e, List.takeWhile_append_of_pos (by
    intro b hb
    simp [hz b (List.mem_of_mem_take hb)])]
  have : n - k = (n - k - 1) + 1 := by omega
  rw [this, List.replicate_succ]
  simp

/-- **C263**: whatever the schedule, a thread that has got its pointer finds a beginning of the text there, not empty. -/
theorem beginning_seen (n : Nat) (t : Bytes) (h0 : t ≠ []) (hz : NulFree t) (hn : t.length < n) (l : List Ev) (u : Nat)
    (hu : (runS t initS l).pc u = .done) : ∃ k, 0 < k ∧ seen n (runS t initS l) = t.take k := by
  obtain ⟨k, _, h⟩ := runS_inv h0 l initS 0 (initS_inv t)
  exact ⟨k, h.done u hu, seen_eq hz hn h⟩

/-- **C263**, what holds: once a thread that wrote the text has got its pointer, all threads find the whole text, for ever. -/
theorem whole_seen_partial (n : Nat) (t : Bytes) (h0 : t ≠ []) (hz : NulFree t) (hn : t.length < n) (l m : List Ev) (u : Nat)
    (hu : (runS t initS l).pc u = .writing t.length) : seen n (runS t initS (l ++ m)) = t := by
  obtain ⟨k, _, h⟩ := runS_inv h0 l initS 0 (initS_inv t)
  have hk : k = t.length := Nat.le_antisymm h.le (h.wr u _ hu)
  have e : runS t initS (l ++ m) = runS t (runS t initS l) m := by simp [runS, List.foldl_append]
  obtain ⟨k2, h2, h3⟩ := runS_inv h0 m _ k h
  rw [e, seen_eq hz hn h3]
  exact List.take_of_length_le (by omega)

theorem writes {t : Bytes} (h0 : t ≠ []) (u v : Nat) (huv : v ≠ u) : ∀ k, k ≤ t.length →
    ∃ s, runS t initS (.call u :: List.replicate k (.run u)) = s ∧ InvS t s k ∧ s.pc u = .writing k ∧ s.pc v = .out
  | 0, _ => by
    refine ⟨_, rfl, ?_, ?_, ?_⟩
    · refine ⟨Nat.zero_le _, fun i => by simp [runS, stepS, initS], fun w i hw => ?_, fun w hw => ?_⟩
      · by_cases e : w = u <;> simp [runS, stepS, initS, Function.update, e] at hw; omega
      · by_cases e : w = u <;> simp [runS, stepS, initS, Function.update, e] at hw
    · simp [runS, stepS, initS]
    · simp [runS, stepS, initS, Function.update, huv]
  | k + 1, hk => by
    obtain ⟨s, h1, h2, h3, h4⟩ := writes h0 u v huv k (by omega)
    have e : runS t initS (.call u :: List.replicate (k + 1) (.run u)) = stepS t s (.run u) := by
      rw [List.replicate_succ', ← List.cons_append]
      unfold runS at h1 ⊢
      rw [List.foldl_append, h1]; rfl
    have ht : t[k]? = some (t.getD k 0) := by simp [show k < t.length by omega]
    have es : stepS t s (.run u) = ⟨Function.update s.buf k (t.getD k 0), Function.update s.pc u (.writing (k + 1))⟩ := by
      simp only [stepS, h3, ht]
    refine ⟨_, e, ?_, by rw [es]; simp, by rw [es]; simp [Function.update_of_ne huv, h4]⟩
    rw [es]
    refine ⟨hk, fun j => ?_, fun w j hw => ?_, fun w hw => by omega⟩
    · simp only
      by_cases e : j = k
      · subst e; simp
      · rw [Function.update_of_ne e, h2.buf j]
        have : j < k ↔ j < k + 1 := by omega
        simp only [this]
    · simp only at hw
      by_cases e : w = u
      · subst e; simp at hw; omega
      · rw [Function.update_of_ne e] at hw
        have := h2.wr w j hw
        omega

/-- **C263**, false of the code: for every beginning of the text there is a schedule in which a second thread gets its pointer
and finds no more than that. -/
theorem part_seen (n : Nat) (t : Bytes) (h0 : t ≠ []) (hz : NulFree t) (hn : t.length < n) (u v : Nat) (huv : v ≠ u) (k : Nat)
    (hk : 0 < k) (hk' : k ≤ t.length) :
    ∃ l, (runS t initS l).pc v = .done ∧ seen n (runS t initS l) = t.take k := by
  obtain ⟨s, h1, h2, h3, h4⟩ := writes h0 u v huv k hk'
  refine ⟨(.call u :: List.replicate k (.run u)) ++ [.call v], ?_⟩
  have e : runS t initS ((.call u :: List.replicate k (.run u)) ++ [.call v]) = stepS t s (.call v) := by
    unfold runS at h1 ⊢
    rw [List.foldl_append, h1]; rfl
  have hb : s.buf 0 ≠ 0 := by
    rw [h2.buf 0, if_pos hk]
    have : 0 < t.length := by omega
    have : t.getD 0 0 ∈ t := by simp [List.getD, this]
    exact hz _ this
  have es : stepS t s (.call v) = { s with pc := Function.update s.pc v .done } := by
    simp [stepS, h4, hb]
  rw [e, es]
  refine ⟨by simp, ?_⟩
  exact seen_eq hz hn (s := s) h2

/-- A machine called "box" with Linux. -/
def box : Sys := ⟨[98, 111, 120], some ([56, 32, 67, 111, 114, 101, 115], [76, 105, 110, 117, 120])⟩

example : Fits 64 box := ⟨by decide, by decide, _, _, rfl, by decide, by decide, by decide⟩
example : (call 64 box (calls 64 init [(box, .uname), (box, .hostname)]) .sysname).2 = some [76, 105, 110, 117, 120] := by decide
/-- "8 Cores, Linux x86 6.1". -/
example : (uname 256 ⟨[98], some (describe [56] [76, 105, 110, 117, 120] [120, 56, 54] [54, 46, 49], [76, 105, 110, 117, 120])⟩ init).2 =
    some [56, 32, 67, 111, 114, 101, 115, 44, 32, 76, 105, 110, 117, 120, 32, 120, 56, 54, 32, 54, 46, 49] := by decide
example : (hostname 64 ⟨List.replicate 64 97, none⟩ init).2 = localhost := by decide
/-- Thread 1 finds "bo". -/
example : seen 64 (runS [98, 111, 120] initS [.call 0, .run 0, .run 0, .call 1]) = [98, 111] := by decide
example : (runS [98, 111, 120] initS [.call 0, .run 0, .run 0, .run 0]).pc 0 = .writing 3 := by decide

end Verif.Tls.Machine
