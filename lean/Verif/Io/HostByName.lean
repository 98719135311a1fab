import Verif.Basic
import Mathlib.Data.List.Basic

/-!
# Looking up a host: `async_gethostbyname` and `gethostbyname_ip` (`src/async_io.c` 330-336, 485-493), C258

The lookup is done by a pool thread with `gethostbyname`, whose result is a record of the C library that all threads share.  The task that asked goes on later and takes the
address from the record; the text of it goes to a buffer of the task's thread (`future_buffer`, future.c:90-92).

Simplified: addresses are values of any type; a lookup that fails leaves the record as it was.
-/

namespace Verif.Io.HostByName

/-- Which thread a task runs in, and what the name service answers: the addresses of a host. -/
structure World (A N : Type) where
  thread : Nat → Nat
  answer : N → Option (List A)

/-- What happens: the pool looks up a name for a task; a task calls `gethostbyname_ip` with the pointer it got; a task reads the text that it got from that call. -/
inductive Ev (N : Type) where
  | lookup (task : Nat) (name : N)
  | ip (task : Nat)
  | use (task : Nat)

/-- The record of the C library, the pointers the tasks got (`some false`: `NULL`), the buffers of the threads, and what tasks read, the last first. -/
structure St (A : Type) where
  record : List A := []
  got : Nat → Option Bool := fun _ => none
  buf : Nat → Option A := fun _ => none
  seen : List (Nat × A) := []

/-- One event; `none` is a fault: a null pointer is followed, or something used that was not there. -/
def step {A N : Type} (w : World A N) (s : St A) : Ev N → Option (St A)
  /- `os_gethostbyname`, async_io.c:330-336 -/
  | .lookup t n =>
    match w.answer n with
    | some l => some { s with record := l, got := fun u => if u = t then some true else s.got u }
    | none => some { s with got := fun u => if u = t then some false else s.got u }
  /- `gethostbyname_ip`, async_io.c:485-488 -/
  | .ip t =>
    match s.got t with
    | some true =>
      match s.record with
      | a :: _ => some { s with buf := fun i => if i = w.thread t then some a else s.buf i }
      | [] => none
    | _ => none
  | .use t => (s.buf (w.thread t)).map fun a => { s with seen := (t, a) :: s.seen }

/-- Events in turn. -/
def run {A N : Type} (w : World A N) : St A → List (Ev N) → Option (St A)
  | s, [] => some s
  | s, e :: l => (step w s e).bind fun s => run w s l

theorem run_append {A N : Type} (w : World A N) (l m : List (Ev N)) : ∀ s, run w s (l ++ m) = (run w s l).bind fun s => run w s m := by
  induction l with
  | nil => intro s; rfl
  | cons e l ih =>
    intro s
    simp only [List.cons_append, run]
    cases step w s e with
    | none => rfl
    | some s => exact ih s

/-! ## Conditions on what other tasks do -/

/-- No lookup ends. -/
def NoLookup {N : Type} (l : List (Ev N)) : Prop := ∀ e ∈ l, match e with | .lookup _ _ => False | _ => True

/-- No task of thread `i` takes an address. -/
def NoIp {A N : Type} (w : World A N) (i : Nat) (l : List (Ev N)) : Prop := ∀ e ∈ l, match e with | .ip t => w.thread t ≠ i | _ => True

theorem noLookup_keeps {A N : Type} (w : World A N) : ∀ (l : List (Ev N)) (s s' : St A), NoLookup l → run w s l = some s' → s'.record = s.record ∧ s'.got = s.got := by
  intro l
  induction l with
  | nil => intro s s' _ h; cases h; exact ⟨rfl, rfl⟩
  | cons e l ih =>
    intro s s' hl h
    have he := hl e (by simp)
    simp only [run] at h
    cases hs : step w s e with
    | none => rw [hs] at h; cases h
    | some s1 =>
      rw [hs] at h
      have h2 := ih s1 s' (fun x hx => hl x (by simp [hx])) h
      have h3 : s1.record = s.record ∧ s1.got = s.got := by
        cases e with
        | lookup t n => exact absurd he (by simp)
        | ip t =>
          simp only [step] at hs
          split at hs
          · split at hs
            · cases hs; exact ⟨rfl, rfl⟩
            · cases hs
          · cases hs
        | use t =>
          simp only [step, Option.map_eq_some_iff] at hs
          obtain ⟨a, -, rfl⟩ := hs
          exact ⟨rfl, rfl⟩
      exact ⟨h2.1.trans h3.1, h2.2.trans h3.2⟩

theorem noIp_keeps {A N : Type} (w : World A N) (i : Nat) : ∀ (l : List (Ev N)) (s s' : St A), NoIp w i l → run w s l = some s' → s'.buf i = s.buf i := by
  intro l
  induction l with
  | nil => intro s s' _ h; cases h; rfl
  | cons e l ih =>
    intro s s' hl h
    have he := hl e (by simp)
    simp only [run] at h
    cases hs : step w s e with
    | none => rw [hs] at h; cases h
    | some s1 =>
      rw [hs] at h
      have h2 := ih s1 s' (fun x hx => hl x (by simp [hx])) h
      have h3 : s1.buf i = s.buf i := by
        cases e with
        | lookup t n =>
          simp only [step] at hs
          split at hs <;> (cases hs; rfl)
        | ip t =>
          simp only [step] at hs
          split at hs
          · split at hs
            · cases hs
              simp only at he
              simp [Ne.symm he]
            · cases hs
          · cases hs
        | use t =>
          simp only [step, Option.map_eq_some_iff] at hs
          obtain ⟨a, -, rfl⟩ := hs
          rfl
      exact h2.trans h3

/-! ## C258 -/

/-- After any history: if no lookup ends between the end of a task's own and its taking the address, and no task of the same thread takes an address before it has read the
text, then it reads the first address of the host it asked for. -/
theorem own_address_partial {A N : Type} (w : World A N) (s : St A) (t : Nat) (n : N) (a : A) (l : List A) (hn : w.answer n = some (a :: l))
    (mid mid2 : List (Ev N)) (h1 : NoLookup mid) (h2 : NoIp w (w.thread t) mid2) (s' : St A)
    (h : run w s (.lookup t n :: mid ++ .ip t :: mid2 ++ [.use t]) = some s') : s'.seen.head? = some (t, a) := by
  rw [run_append, run_append] at h
  simp only [run, step, hn, Option.bind_some, Option.bind_eq_some_iff, Option.map_eq_some_iff] at h
  obtain ⟨s2, ⟨s1, hs1, s3, hs3, hs2⟩, s4, ⟨b, hb, rfl⟩, hs4⟩ := h
  cases hs4
  obtain ⟨hr, hg⟩ := noLookup_keeps w mid _ _ h1 hs1
  have hgt : s1.got t = some true := by rw [hg]; simp
  simp only at hr
  rw [hgt, hr] at hs3
  simp only [Option.some.injEq] at hs3
  have hbuf := noIp_keeps w (w.thread t) mid2 s3 s2 h2 hs2
  rw [← hs3] at hbuf
  simp only [if_true] at hbuf
  rw [hbuf] at hb
  cases hb
  rfl

/-- If another task's lookup ends before the first has taken its address, the first reads the address of the other host. -/
theorem other_host {A N : Type} (w : World A N) (s : St A) (t u : Nat) (htu : t ≠ u) (n m : N) (a b : A) (l k : List A) (hn : w.answer n = some (a :: l))
    (hm : w.answer m = some (b :: k)) : ∃ s', run w s [.lookup t n, .lookup u m, .ip t, .use t] = some s' ∧ s'.seen.head? = some (t, b) := by
  simp [run, step, hn, hm, htu]

/-- If another task of the same thread takes its address before the first has used the text, the first reads the address of the other host, although each lookup was
used up before the next. -/
theorem other_text {A N : Type} (w : World A N) (s : St A) (t u : Nat) (hth : w.thread t = w.thread u) (n m : N) (a b : A) (l k : List A)
    (hn : w.answer n = some (a :: l)) (hm : w.answer m = some (b :: k)) :
    ∃ s', run w s [.lookup t n, .ip t, .lookup u m, .ip u, .use t] = some s' ∧ s'.seen.head? = some (t, b) := by
  simp [run, step, hn, hm, hth]

/-- A host that is not found: taking its address follows a null pointer, in every state. -/
theorem not_found {A N : Type} (w : World A N) (s : St A) (t : Nat) (n : N) (hn : w.answer n = none) : run w s [.lookup t n, .ip t] = none := by
  simp [run, step, hn]

/-- Two tasks in a thread; a third in another one looks up a host while the first has its text: the first still reads its own. -/
example : ((run (A := Nat) (N := Nat) ⟨fun t => t / 2, fun n => if n = 9 then none else some [n + 100, n + 200]⟩ {}
    [.lookup 0 1, .ip 0, .lookup 2 5, .ip 2, .use 0]).map St.seen) = some [(0, 101)] := by decide

/-- The same in one thread: the first reads the address of the other. -/
example : ((run (A := Nat) (N := Nat) ⟨fun t => t / 2, fun n => if n = 9 then none else some [n + 100, n + 200]⟩ {}
    [.lookup 0 1, .ip 0, .lookup 1 5, .ip 1, .use 0]).map St.seen) = some [(0, 105)] := by decide

end Verif.Io.HostByName
