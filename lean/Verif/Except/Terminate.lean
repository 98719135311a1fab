import Mathlib.Data.List.Basic
import Mathlib.Data.List.Count

/-!
# The end of the program after an exception that nobody catches (`src/except.c` 453-482, 484-518, 632-656), C239, C240

`ex_throw` outside every `try` writes down the exception and calls `ex_terminate`, which prints it, calls the functions that the program
has given for this case and ends the process.  Those functions may return, throw, end the process themselves, or be interrupted by a
signal that is turned into an exception.

Simplified: one thread; the deferred functions of the scope (459-460) are those of C230 and C231 and are left out here; of the text that
is printed only the name of the exception is kept.
-/

namespace Verif.Except.Terminate

/-- The four function pointers, except.c:76-77 and 83-84; `none` is `null`. -/
structure Hooks where
  guardCtrl : Option Nat := none
  excCtrl : Option Nat := none
  guardTerm : Option Nat := none
  excTerm : Option Nat := none

/-- What one call of such a function does. -/
inductive Act where
  | ret
  | throw (e : Nat)
  | exit
  /-- A signal arrives meanwhile; `int`: it is `SIGINT`.  `e`: the exception of the signal. -/
  | sig (int : Bool) (e : Nat)
  deriving DecidableEq, Repr

/-- What can be seen from outside.  `exit`: `exit(EXIT_FAILURE)`, which runs the functions given to `atexit` and writes out buffered
output; `quick`: `_Exit(EXIT_FAILURE)`, which does neither. -/
inductive Eff where
  | print (e : Option Nat)
  | ctrlHook (f : Nat)
  | termHook (f : Nat)
  | exit
  | quick
  deriving DecidableEq, Repr

/-- `signal`, `ctrl`, `can`: `got_signal`, `got_ctrl_c`, `can_terminate`, except.c:64-67; `unstack`: `ctx->unstack`; `msg`:
`uncaught_message`, 68; `blocked`: `SIGINT` is blocked because the process is in the handler of a `SIGINT`. -/
structure St where
  signal : Bool := false
  ctrl : Bool := false
  can : Bool := true
  unstack : Bool := false
  msg : Option Nat := none
  blocked : Bool := false
  deriving DecidableEq, Repr

/-- `ex_throw` outside every `try` up to the call of `ex_terminate`: except.c:487-488 or 511-516. -/
def record (e : Nat) (s : St) : St := if s.unstack then s else { s with msg := some e }

/-- `ex_handler`, except.c:636-638, with the kernel blocking the signal while its handler runs. -/
def handler (int : Bool) (s : St) : St :=
  { s with
    signal := true
    ctrl := s.ctrl || int
    blocked := s.blocked || int }

inductive Next where
  | go (s : St)
  | stop
  | again (s : St)

/-- One call of a function of the program.  A blocked signal waits until the process has ended. -/
def call (a : Act) (s : St) : Next :=
  match a with
  | .ret => .go s
  | .exit => .stop
  | .throw e => .again (record e s)
  | .sig int e => if int && s.blocked then .go s else .again (record e (handler int s))

/-- except.c:478-481. -/
def leave (s : St) : Eff := if s.signal then .quick else .exit

/-- except.c:470-481; `k` is `ex_terminate` called once more by an exception in the function. -/
def second (k : St → List Eff → Option (List Eff)) (h : Hooks) (beh : Nat → Act) (s : St) (tr : List Eff) : Option (List Eff) :=
  if s.can then
    match h.guardTerm.orElse fun _ => h.excTerm with
    | none => some (tr ++ [leave s])
    | some f =>
      match call (beh tr.length) { s with can := false } with
      | .go s => some (tr ++ [.termHook f, leave s])
      | .stop => some (tr ++ [.termHook f, .exit])
      | .again s => k s (tr ++ [.termHook f])
  else some (tr ++ [leave s])

/-- except.c:462-468 and on. -/
def first (k : St → List Eff → Option (List Eff)) (h : Hooks) (beh : Nat → Act) (s : St) (tr : List Eff) : Option (List Eff) :=
  if s.ctrl then
    match h.guardCtrl.orElse fun _ => h.excCtrl with
    | none => second k h beh { s with ctrl := false } tr
    | some f =>
      match call (beh tr.length) { s with ctrl := false } with
      | .go s => second k h beh s (tr ++ [.ctrlHook f])
      | .stop => some (tr ++ [.ctrlHook f, .exit])
      | .again s => k s (tr ++ [.ctrlHook f])
  else second k h beh s tr

/-- `ex_terminate`, except.c:453-482.  `beh n`: what the function called when `n` things have been seen does.  The number bounds the
nesting of exceptions in those functions; `none`: it did not suffice. -/
def terminate : Nat → Hooks → (Nat → Act) → St → List Eff → Option (List Eff)
  | 0, _, _, _, _ => none
  | n + 1, h, beh, s, tr => first (terminate n h beh) h beh s (tr ++ [.print s.msg])

/-- What happened before: a signal or another exception that was caught.  (`sigsetjmp(buf, 1)` gives the signal mask back.) -/
inductive Past where
  | signal (int : Bool)
  | exception
  deriving DecidableEq, Repr

/-- Nothing is ever cleared: `ex_flags_reset` (except.c:387-390) is called by nobody. -/
def past (s : St) : Past → St
  | .signal int => { s with signal := true, ctrl := s.ctrl || int }
  | .exception => s

/-- Where the exception that nobody catches comes from: `throw`, a signal, or a `throw` of a function that is called while another
exception unwinds. -/
inductive Origin where
  | throw (e : Nat)
  | signal (int : Bool) (e : Nat)
  | unwinding (e : Nat)
  deriving DecidableEq, Repr

def start (o : Origin) (s : St) : St :=
  match o with
  | .throw e => record e s
  | .signal int e => record e (handler int s)
  | .unwinding e => record e { s with unstack := true }

/-- A program: its past, then an exception that nobody catches. -/
def run (h : Hooks) (beh : Nat → Act) (l : List Past) (o : Origin) : Option (List Eff) :=
  terminate 4 h beh (start o (l.foldl past {})) []

/-! ## Specification -/

def Eff.isTerm : Eff → Bool
  | .termHook _ => true
  | _ => false

def Eff.isCtrl : Eff → Bool
  | .ctrlHook _ => true
  | _ => false

def Origin.exception : Origin → Nat
  | .throw e | .signal _ e | .unwinding e => e

/-- The functions of the program do not end the process. -/
def NoExit (beh : Nat → Act) : Prop := ∀ n, beh n ≠ .exit

/-- No `SIGINT` anywhere. -/
def NoInt (beh : Nat → Act) (l : List Past) (o : Origin) : Prop :=
  (∀ n e, beh n ≠ .sig true e) ∧ Past.signal true ∉ l ∧ ∀ e, o ≠ .signal true e

/-- No signal anywhere. -/
def NoSignal (beh : Nat → Act) (l : List Past) (o : Origin) : Prop :=
  (∀ n b e, beh n ≠ .sig b e) ∧ (∀ b, Past.signal b ∉ l) ∧ ∀ b e, o ≠ .signal b e

/-! ## Lemmas -/

@[simp] theorem isTerm_print (e : Option Nat) : (Eff.print e).isTerm = false := rfl
@[simp] theorem isTerm_ctrl (f : Nat) : (Eff.ctrlHook f).isTerm = false := rfl
@[simp] theorem isTerm_term (f : Nat) : (Eff.termHook f).isTerm = true := rfl
@[simp] theorem isTerm_exit : Eff.exit.isTerm = false := rfl
@[simp] theorem isCtrl_print (e : Option Nat) : (Eff.print e).isCtrl = false := rfl
@[simp] theorem isCtrl_ctrl (f : Nat) : (Eff.ctrlHook f).isCtrl = true := rfl
@[simp] theorem isCtrl_term (f : Nat) : (Eff.termHook f).isCtrl = false := rfl
@[simp] theorem isCtrl_exit : Eff.exit.isCtrl = false := rfl

def pot (s : St) : Nat := (if s.ctrl then 1 else 0) + (if s.can then 1 else 0) + if s.blocked then 0 else 1

theorem record_fields (e : Nat) (s : St) : (record e s).signal = s.signal ∧ (record e s).ctrl = s.ctrl ∧ (record e s).can = s.can ∧
    (record e s).blocked = s.blocked ∧ (record e s).unstack = s.unstack := by
  unfold record; split <;> simp

/-- What a call leaves behind, whatever it does. -/
theorem call_go {a : Act} {s t : St} (h : call a s = .go t) : t = s := by
  cases a <;> simp only [call] at h
  · injection h with h; exact h.symm
  · simp at h
  · simp at h
  · split at h
    · injection h with h; exact h.symm
    · simp at h

theorem call_again {a : Act} {s t : St} (h : call a s = .again t) :
    t.can = s.can ∧ (s.signal = true → t.signal = true) ∧ (s.ctrl = true → t.ctrl = true) ∧
    ((t.ctrl = s.ctrl ∧ t.blocked = s.blocked) ∨ (t.ctrl = true ∧ s.blocked = false ∧ t.blocked = true ∧ ∃ e, a = .sig true e)) ∧
    ((∀ b e, a ≠ .sig b e) → t.signal = s.signal) := by
  cases a with
  | ret => simp [call] at h
  | exit => simp [call] at h
  | throw e =>
    simp only [call, Next.again.injEq] at h
    subst h
    obtain ⟨h1, h2, h3, h4, h5⟩ := record_fields e s
    simp [h1, h2, h3, h4]
  | sig int e =>
    simp only [call] at h
    split at h
    · simp at h
    · rename_i hb
      simp only [Next.again.injEq] at h
      subst h
      obtain ⟨h1, h2, h3, h4, h5⟩ := record_fields e (handler int s)
      rw [h1, h2, h3, h4]
      cases int <;> simp_all [handler]

theorem call_stop {a : Act} {s : St} (h : call a s = .stop) : a = .exit := by
  cases a with
  | exit => rfl
  | ret => simp [call] at h
  | throw e => simp [call] at h
  | sig int e => simp only [call] at h; split at h <;> simp at h

theorem past_fields (l : List Past) (s : St) :
    (l.foldl past s).can = s.can ∧ (l.foldl past s).blocked = s.blocked ∧ (l.foldl past s).unstack = s.unstack ∧
    (l.foldl past s).msg = s.msg ∧
    ((l.foldl past s).ctrl = true ↔ s.ctrl = true ∨ Past.signal true ∈ l) ∧
    ((l.foldl past s).signal = true ↔ s.signal = true ∨ ∃ b, Past.signal b ∈ l) := by
  induction l generalizing s with
  | nil => simp
  | cons p l ih =>
    simp only [List.foldl_cons]
    obtain ⟨h1, h2, h3, h4, h5, h6⟩ := ih (past s p)
    rw [h1, h2, h3, h4, h5, h6]
    cases p with
    | signal int => cases int <;> simp [past]
    | exception => simp [past]

theorem start_fields (o : Origin) (l : List Past) :
    let s := start o (l.foldl past {})
    s.can = true ∧
    (s.ctrl = true ↔ Past.signal true ∈ l ∨ ∃ e, o = .signal true e) ∧
    (s.signal = true ↔ (∃ b, Past.signal b ∈ l) ∨ ∃ b e, o = .signal b e) ∧
    (s.blocked = true ↔ ∃ e, o = .signal true e) ∧
    ((∀ e, o ≠ .unwinding e) → s.msg = some o.exception) ∧
    ((∃ e, o = .unwinding e) → s.msg = none) := by
  obtain ⟨h1, h2, h3, h4, h5, h6⟩ := past_fields l {}
  cases o with
  | throw e =>
    obtain ⟨r1, r2, r3, r4, r5⟩ := record_fields e (l.foldl past {})
    simp only [start, r1, r2, r3, r4, h1, h2, h5, h6]
    simp [record, h3, Origin.exception]
  | signal int e =>
    obtain ⟨r1, r2, r3, r4, r5⟩ := record_fields e (handler int (l.foldl past {}))
    simp only [start, r1, r2, r3, r4]
    cases int <;> simp [handler, record, h1, h2, h3, h5, Origin.exception]
  | unwinding e =>
    simp [start, record, h1, h2, h4, h5, h6]

/-- Four levels suffice. -/
theorem terminate_total (n : Nat) (h : Hooks) (beh : Nat → Act) (s : St) (tr : List Eff) (hn : pot s < n) :
    ∃ r, terminate n h beh s tr = some r := by
  induction n generalizing s tr with
  | zero => omega
  | succ n ih =>
    have sec : ∀ (s : St) (tr : List Eff), pot s < n + 1 → ∃ r, second (terminate n h beh) h beh s tr = some r := by
      intro s tr hp
      unfold second
      split
      · rename_i hc
        split
        · exact ⟨_, rfl⟩
        · split
          · exact ⟨_, rfl⟩
          · exact ⟨_, rfl⟩
          · rename_i t ht
            refine ih t _ ?_
            obtain ⟨a1, -, a3, a4, -⟩ := call_again ht
            simp only [pot, hc, if_true] at hp
            simp only [pot, a1]
            rcases a4 with ⟨e1, e2⟩ | ⟨e1, e2, e3, -⟩
            · rw [e1, e2]; simp only [] at *; simp; omega
            · simp only [] at e2; simp [e1, e3]; rw [e2] at hp; simp at hp; omega
      · exact ⟨_, rfl⟩
    simp only [terminate]
    unfold first
    split
    · rename_i hc
      split
      · refine sec _ _ ?_
        simp only [pot, hc] at hn ⊢; simp at hn ⊢; omega
      · split
        · rename_i t ht
          have := call_go ht
          subst this
          refine sec _ _ ?_
          simp only [pot, hc] at hn ⊢; simp at hn ⊢; omega
        · exact ⟨_, rfl⟩
        · rename_i t ht
          refine ih t _ ?_
          obtain ⟨a1, -, a3, a4, -⟩ := call_again ht
          simp only [pot, hc, if_true] at hn
          simp only [pot, a1]
          rcases a4 with ⟨e1, e2⟩ | ⟨e1, e2, e3, -⟩
          · rw [e1, e2]; simp; omega
          · simp only [] at e2; simp [e1, e3]; rw [e2] at hn; simp at hn; omega
    · exact sec _ _ hn

/-- The program always ends. -/
theorem run_total (h : Hooks) (beh : Nat → Act) (l : List Past) (o : Origin) : ∃ r, run h beh l o = some r := by
  refine terminate_total 4 h beh _ [] ?_
  simp only [pot]
  split <;> split <;> split <;> omega

/-- A way to prove things about everything that is seen: `P s tr r` says that `r` is a good end for `s` and `tr`. -/
theorem terminate_ind (h : Hooks) (beh : Nat → Act) (P Q : St → List Eff → List Eff → Prop)
    (hprint : ∀ s tr r, Q s (tr ++ [.print s.msg]) r → P s tr r)
    (hsecond : ∀ s tr r, s.ctrl = false →
      ((s.can = false ∨ (h.guardTerm.orElse fun _ => h.excTerm) = none) → r = tr ++ [leave s] → Q s tr r) ∧
      (∀ f, s.can = true → (h.guardTerm.orElse fun _ => h.excTerm) = some f →
        (call (beh tr.length) { s with can := false } = .go { s with can := false } →
          r = tr ++ [.termHook f, leave { s with can := false }] → Q s tr r) ∧
        (call (beh tr.length) { s with can := false } = .stop → r = tr ++ [.termHook f, .exit] → Q s tr r) ∧
        (∀ t, call (beh tr.length) { s with can := false } = .again t → P t (tr ++ [.termHook f]) r → Q s tr r)))
    (hfirst : ∀ s tr r, s.ctrl = true →
      ((h.guardCtrl.orElse fun _ => h.excCtrl) = none → Q { s with ctrl := false } tr r → Q s tr r) ∧
      (∀ f, (h.guardCtrl.orElse fun _ => h.excCtrl) = some f →
        (call (beh tr.length) { s with ctrl := false } = .go { s with ctrl := false } →
          Q { s with ctrl := false } (tr ++ [.ctrlHook f]) r → Q s tr r) ∧
        (call (beh tr.length) { s with ctrl := false } = .stop → r = tr ++ [.ctrlHook f, .exit] → Q s tr r) ∧
        (∀ t, call (beh tr.length) { s with ctrl := false } = .again t → P t (tr ++ [.ctrlHook f]) r → Q s tr r)))
    (n : Nat) (s : St) (tr r : List Eff) (hr : terminate n h beh s tr = some r) : P s tr r := by
  induction n generalizing s tr r with
  | zero => simp [terminate] at hr
  | succ n ih =>
    have sec : ∀ (s : St) (tr r : List Eff), s.ctrl = false → second (terminate n h beh) h beh s tr = some r → Q s tr r := by
      intro s tr r hc hr
      obtain ⟨p1, p2⟩ := hsecond s tr r hc
      unfold second at hr
      split at hr
      · rename_i hcan
        split at hr
        · rename_i hh
          exact p1 (Or.inr hh) (Option.some.inj hr).symm
        · rename_i f hh
          obtain ⟨q1, q2, q3⟩ := p2 f hcan hh
          split at hr
          · rename_i t ht
            have := call_go ht
            subst this
            exact q1 ht (Option.some.inj hr).symm
          · rename_i ht
            exact q2 ht (Option.some.inj hr).symm
          · rename_i t ht
            exact q3 t ht (ih _ _ _ hr)
      · rename_i hcan
        exact p1 (Or.inl (by simpa using hcan)) (Option.some.inj hr).symm
    simp only [terminate] at hr
    refine hprint s tr r ?_
    unfold first at hr
    split at hr
    · rename_i hc
      obtain ⟨p1, p2⟩ := hfirst s (tr ++ [.print s.msg]) r hc
      split at hr
      · rename_i hh
        exact p1 hh (sec _ _ _ rfl hr)
      · rename_i f hh
        obtain ⟨q1, q2, q3⟩ := p2 f hh
        split at hr
        · rename_i t ht
          have := call_go ht
          subst this
          exact q1 ht (sec _ _ _ rfl hr)
        · rename_i ht
          exact q2 ht (Option.some.inj hr).symm
        · rename_i t ht
          exact q3 t ht (ih _ _ _ hr)
    · rename_i hc
      exact sec _ _ _ (by simpa using hc) hr

theorem prefix_all (h : Hooks) (beh : Nat → Act) (n : Nat) (s : St) (tr r : List Eff) (hr : terminate n h beh s tr = some r) :
    tr ++ [.print s.msg] <+: r := by
  have cut : ∀ {a b r : List Eff}, a ++ b <+: r → a <+: r := fun hp => (List.prefix_append _ _).trans hp
  refine terminate_ind h beh (fun s tr r => tr ++ [.print s.msg] <+: r) (fun _ tr r => tr <+: r) ?_ ?_ ?_ n s tr r hr
  · intro s tr r hq; exact hq
  · intro s tr r _
    refine ⟨fun _ e => e ▸ List.prefix_append _ _, fun f _ _ => ⟨fun _ e => e ▸ List.prefix_append _ _,
      fun _ e => e ▸ List.prefix_append _ _, fun t _ hp => cut (cut hp)⟩⟩
  · intro s tr r _
    refine ⟨fun _ hp => hp, fun f _ => ⟨fun _ hp => cut hp, fun _ e => e ▸ List.prefix_append _ _, fun t _ hp => cut (cut hp)⟩⟩

theorem term_le (h : Hooks) (beh : Nat → Act) (n : Nat) (s : St) (tr r : List Eff) (hr : terminate n h beh s tr = some r) :
    r.countP Eff.isTerm ≤ tr.countP Eff.isTerm + (if s.can then 1 else 0) := by
  have lv : ∀ s, Eff.isTerm (leave s) = false := by intro s; unfold leave; split <;> rfl
  refine terminate_ind h beh (fun s tr r => r.countP Eff.isTerm ≤ tr.countP Eff.isTerm + (if s.can then 1 else 0))
    (fun s tr r => r.countP Eff.isTerm ≤ tr.countP Eff.isTerm + (if s.can then 1 else 0)) ?_ ?_ ?_ n s tr r hr
  · intro s tr r hq
    simpa [List.countP_cons] using hq
  · intro s tr r _
    refine ⟨fun _ e => ?_, fun f hc _ => ⟨fun _ e => ?_, fun _ e => ?_, fun t ht hp => ?_⟩⟩
    · subst e; simp [lv]
    · subst e; simp [lv, hc, List.countP_cons]
    · subst e; simp [hc, List.countP_cons]
    · have := (call_again ht).1
      simp only [] at this
      rw [this] at hp
      simp [List.countP_cons] at hp
      simp [hc]; exact hp
  · intro s tr r _
    refine ⟨fun _ hp => hp, fun f _ => ⟨fun _ hp => ?_, fun _ e => ?_, fun t ht hp => ?_⟩⟩
    · simpa [List.countP_cons] using hp
    · subst e; simp [List.countP_cons]
    · have := (call_again ht).1
      simp only [] at this
      rw [this] at hp
      simpa [List.countP_cons] using hp

theorem term_eq (h : Hooks) (beh : Nat → Act) (f0 : Nat) (hf : (h.guardTerm.orElse fun _ => h.excTerm) = some f0) (hx : NoExit beh)
    (n : Nat) (s : St) (tr r : List Eff) (hr : terminate n h beh s tr = some r) :
    r.countP Eff.isTerm = tr.countP Eff.isTerm + (if s.can then 1 else 0) := by
  have lv : ∀ s, Eff.isTerm (leave s) = false := by intro s; unfold leave; split <;> rfl
  refine terminate_ind h beh (fun s tr r => r.countP Eff.isTerm = tr.countP Eff.isTerm + (if s.can then 1 else 0))
    (fun s tr r => r.countP Eff.isTerm = tr.countP Eff.isTerm + (if s.can then 1 else 0)) ?_ ?_ ?_ n s tr r hr
  · intro s tr r hq
    simpa [List.countP_cons] using hq
  · intro s tr r _
    refine ⟨fun hn e => ?_, fun f hc _ => ⟨fun _ e => ?_, fun hs _ => absurd (call_stop hs) (hx _), fun t ht hp => ?_⟩⟩
    · rw [hf] at hn
      simp only [reduceCtorEq, or_false] at hn
      subst e; simp [lv, hn]
    · subst e; simp [lv, hc, List.countP_cons]
    · have := (call_again ht).1
      simp only [] at this
      rw [this] at hp
      simp [List.countP_cons] at hp
      simp [hc]; exact hp
  · intro s tr r _
    refine ⟨fun _ hp => hp, fun f _ => ⟨fun _ hp => ?_, fun hs _ => absurd (call_stop hs) (hx _), fun t ht hp => ?_⟩⟩
    · simpa [List.countP_cons] using hp
    · have := (call_again ht).1
      simp only [] at this
      rw [this] at hp
      simpa [List.countP_cons] using hp

theorem hooks_which (h : Hooks) (beh : Nat → Act) (n : Nat) (s : St) (tr r : List Eff) (hr : terminate n h beh s tr = some r) :
    (∀ f, Eff.termHook f ∈ r → Eff.termHook f ∈ tr ∨ (h.guardTerm.orElse fun _ => h.excTerm) = some f) ∧
    (∀ f, Eff.ctrlHook f ∈ r → Eff.ctrlHook f ∈ tr ∨ (h.guardCtrl.orElse fun _ => h.excCtrl) = some f) := by
  have lv : ∀ s f, Eff.termHook f ≠ leave s ∧ Eff.ctrlHook f ≠ leave s := by intro s f; unfold leave; split <;> simp
  let P : St → List Eff → List Eff → Prop := fun _ tr r =>
    (∀ f, Eff.termHook f ∈ r → Eff.termHook f ∈ tr ∨ (h.guardTerm.orElse fun _ => h.excTerm) = some f) ∧
    (∀ f, Eff.ctrlHook f ∈ r → Eff.ctrlHook f ∈ tr ∨ (h.guardCtrl.orElse fun _ => h.excCtrl) = some f)
  refine terminate_ind h beh P P ?_ ?_ ?_ n s tr r hr
  · intro s tr r hq
    simpa [P] using hq
  · intro s tr r _
    refine ⟨fun _ e => ?_, fun f hc hf => ⟨fun _ e => ?_, fun _ e => ?_, fun t ht hp => ?_⟩⟩
    · subst e
      refine ⟨fun f hm => ?_, fun f hm => ?_⟩ <;> simp [lv] at hm <;> exact Or.inl hm
    · subst e
      refine ⟨fun g hm => ?_, fun g hm => ?_⟩ <;> simp [lv] at hm
      · rcases hm with hm | hm
        · exact Or.inl hm
        · subst hm; exact Or.inr hf
      · exact Or.inl hm
    · subst e
      refine ⟨fun g hm => ?_, fun g hm => ?_⟩ <;> simp at hm
      · rcases hm with hm | hm
        · exact Or.inl hm
        · subst hm; exact Or.inr hf
      · exact Or.inl hm
    · refine ⟨fun g hm => ?_, fun g hm => ?_⟩
      · rcases hp.1 g hm with hm | hm
        · simp at hm
          rcases hm with hm | hm
          · exact Or.inl hm
          · subst hm; exact Or.inr hf
        · exact Or.inr hm
      · rcases hp.2 g hm with hm | hm
        · simp at hm; exact Or.inl hm
        · exact Or.inr hm
  · intro s tr r _
    refine ⟨fun _ hp => hp, fun f hf => ?_⟩
    have aux : ∀ t, P t (tr ++ [.ctrlHook f]) r → P s tr r := by
      intro t hp
      refine ⟨fun g hm => ?_, fun g hm => ?_⟩
      · rcases hp.1 g hm with hm | hm
        · simp at hm; exact Or.inl hm
        · exact Or.inr hm
      · rcases hp.2 g hm with hm | hm
        · simp at hm
          rcases hm with hm | hm
          · exact Or.inl hm
          · subst hm; exact Or.inr hf
        · exact Or.inr hm
    refine ⟨fun _ hp => aux s hp, fun _ e => ?_, fun t ht hp => aux s hp⟩
    subst e
    refine ⟨fun g hm => ?_, fun g hm => ?_⟩ <;> simp at hm
    · exact Or.inl hm
    · rcases hm with hm | hm
      · exact Or.inl hm
      · subst hm; exact Or.inr hf

theorem ctrl_le (h : Hooks) (beh : Nat → Act) (n : Nat) (s : St) (tr r : List Eff) (hr : terminate n h beh s tr = some r) :
    (r.countP Eff.isCtrl ≤ tr.countP Eff.isCtrl + (if s.ctrl then 1 else 0) + (if s.blocked then 0 else 1)) ∧
    ((∀ n e, beh n ≠ .sig true e) → r.countP Eff.isCtrl ≤ tr.countP Eff.isCtrl + (if s.ctrl then 1 else 0)) := by
  have lv : ∀ s, Eff.isCtrl (leave s) = false := by intro s; unfold leave; split <;> rfl
  let P : St → List Eff → List Eff → Prop := fun s tr r =>
    (r.countP Eff.isCtrl ≤ tr.countP Eff.isCtrl + (if s.ctrl then 1 else 0) + (if s.blocked then 0 else 1)) ∧
    ((∀ n e, beh n ≠ .sig true e) → r.countP Eff.isCtrl ≤ tr.countP Eff.isCtrl + (if s.ctrl then 1 else 0))
  refine terminate_ind h beh P P ?_ ?_ ?_ n s tr r hr
  · intro s tr r hq
    simpa [P, List.countP_cons] using hq
  · intro s tr r hctrl
    refine ⟨fun _ e => ?_, fun f hc _ => ⟨fun _ e => ?_, fun _ e => ?_, fun t ht hp => ?_⟩⟩
    · subst e; simp [P, lv]; omega
    · subst e; simp [P, lv, List.countP_cons]; omega
    · subst e; simp [P, List.countP_cons]; omega
    · obtain ⟨-, -, -, a4, -⟩ := call_again ht
      simp only [] at a4
      simp [P, List.countP_cons] at hp ⊢
      rcases a4 with ⟨e1, e2⟩ | ⟨e1, e2, e3, e, e4⟩
      · rw [e1, e2] at hp; exact hp
      · rw [e1, e3] at hp; rw [e2, hctrl]
        simp at hp ⊢
        exact ⟨hp.1, fun hn => absurd e4 (hn _ _)⟩
  · intro s tr r hctrl
    refine ⟨fun _ hp => ?_, fun f _ => ⟨fun _ hp => ?_, fun _ e => ?_, fun t ht hp => ?_⟩⟩
    · simp [P, hctrl] at hp ⊢
      refine ⟨by omega, fun hn => ?_⟩
      have := hp.2 hn; omega
    · simp [P, List.countP_cons, hctrl] at hp ⊢; exact hp
    · subst e; simp [P, List.countP_cons, hctrl]
    · obtain ⟨-, -, -, a4, -⟩ := call_again ht
      simp only [] at a4
      simp [P, List.countP_cons] at hp ⊢
      rcases a4 with ⟨e1, e2⟩ | ⟨e1, e2, e3, e, e4⟩
      · rw [e1, e2] at hp; rw [hctrl]; simp at hp ⊢; exact hp
      · rw [e1, e3] at hp; rw [e2, hctrl]
        simp at hp ⊢
        exact ⟨hp.1, fun hn => absurd e4 (hn _ _)⟩

theorem chosen {a b : Option Nat} (hh : a.isSome ∨ b.isSome) : ∃ f, (a.orElse fun _ => b) = some f := by
  cases a with
  | some g => exact ⟨g, rfl⟩
  | none =>
    cases b with
    | some g => exact ⟨g, rfl⟩
    | none => simp at hh

theorem ctrl_ge_tr (h : Hooks) (beh : Nat → Act) (f : Nat) (hf : (h.guardCtrl.orElse fun _ => h.excCtrl) = some f) (n : Nat) (s : St)
    (tr r : List Eff) (hc : s.ctrl = true) (hr : terminate n h beh s tr = some r) :
    tr.countP Eff.isCtrl + 1 ≤ r.countP Eff.isCtrl := by
  have le : ∀ {a b : List Eff}, a <+: b → a.countP Eff.isCtrl ≤ b.countP Eff.isCtrl := by
    rintro a b ⟨c, rfl⟩; simp
  have := terminate_ind h beh (fun s tr r => tr <+: r ∧ (s.ctrl = true → tr.countP Eff.isCtrl + 1 ≤ r.countP Eff.isCtrl))
    (fun s tr r => tr <+: r ∧ (s.ctrl = true → tr.countP Eff.isCtrl + 1 ≤ r.countP Eff.isCtrl)) ?_ ?_ ?_ n s tr r hr
  · exact this.2 hc
  · intro s tr r hq
    exact ⟨(List.prefix_append _ _).trans hq.1, fun h => by simpa [List.countP_cons] using hq.2 h⟩
  · intro s tr r hn
    have no : s.ctrl = true → tr.countP Eff.isCtrl + 1 ≤ r.countP Eff.isCtrl := by simp [hn]
    refine ⟨fun _ e => ⟨e ▸ List.prefix_append _ _, no⟩, fun g _ _ => ⟨fun _ e => ⟨e ▸ List.prefix_append _ _, no⟩,
      fun _ e => ⟨e ▸ List.prefix_append _ _, no⟩, fun t _ hp => ⟨(List.prefix_append _ _).trans hp.1, no⟩⟩⟩
  · intro s tr r _
    refine ⟨fun hn => (by rw [hf] at hn; simp at hn), fun g _ => ?_⟩
    have aux : tr ++ [.ctrlHook g] <+: r → tr <+: r ∧ (s.ctrl = true → tr.countP Eff.isCtrl + 1 ≤ r.countP Eff.isCtrl) :=
      fun hp => ⟨(List.prefix_append _ _).trans hp, fun _ => by simpa [List.countP_cons] using le hp⟩
    refine ⟨fun _ hp => aux hp.1, fun _ e => aux (e ▸ ⟨[.exit], by simp⟩), fun t _ hp => aux hp.1⟩

theorem ctrl_ge (h : Hooks) (beh : Nat → Act) (hh : h.guardCtrl.isSome ∨ h.excCtrl.isSome) (s : St) (hc : s.ctrl = true)
    (r : List Eff) (hr : terminate 4 h beh s [] = some r) : 0 < r.countP Eff.isCtrl := by
  obtain ⟨f, hf⟩ := chosen hh
  have := ctrl_ge_tr h beh f hf 4 s [] r hc hr
  simpa using this

theorem last_exit (h : Hooks) (beh : Nat → Act) (hb : ∀ n b e, beh n ≠ .sig b e) (n : Nat) (s : St) (tr r : List Eff)
    (hs : s.signal = false) (hr : terminate n h beh s tr = some r) : r.getLast? = some .exit := by
  have lv : ∀ s, s.signal = false → leave s = .exit := by intro s h; simp [leave, h]
  refine terminate_ind h beh (fun s _ r => s.signal = false → r.getLast? = some .exit)
    (fun s _ r => s.signal = false → r.getLast? = some .exit) ?_ ?_ ?_ n s tr r hr hs
  · intro s tr r hq; exact hq
  · intro s tr r _
    refine ⟨fun _ e hs => ?_, fun f _ _ => ⟨fun _ e hs => ?_, fun _ e _ => ?_, fun t ht hp hs => hp ?_⟩⟩
    · subst e; simp [lv, hs]
    · subst e; simp [lv, hs]
    · subst e; simp
    · rw [(call_again ht).2.2.2.2 (hb _)]; exact hs
  · intro s tr r _
    refine ⟨fun _ hp => hp, fun f _ => ⟨fun _ hp => hp, fun _ e _ => ?_, fun t ht hp hs => hp ?_⟩⟩
    · subst e; simp
    · rw [(call_again ht).2.2.2.2 (hb _)]; exact hs

theorem last_quick (h : Hooks) (beh : Nat → Act) (hb : NoExit beh) (n : Nat) (s : St) (tr r : List Eff)
    (hs : s.signal = true) (hr : terminate n h beh s tr = some r) : r.getLast? = some .quick := by
  have lv : ∀ s, s.signal = true → leave s = .quick := by intro s h; simp [leave, h]
  refine terminate_ind h beh (fun s _ r => s.signal = true → r.getLast? = some .quick)
    (fun s _ r => s.signal = true → r.getLast? = some .quick) ?_ ?_ ?_ n s tr r hr hs
  · intro s tr r hq; exact hq
  · intro s tr r _
    refine ⟨fun _ e hs => ?_, fun f _ _ => ⟨fun _ e hs => ?_, fun hx _ => absurd (call_stop hx) (hb _), fun t ht hp hs => hp ?_⟩⟩
    · subst e; simp [lv, hs]
    · subst e; simp [lv, hs]
    · exact (call_again ht).2.1 hs
  · intro s tr r _
    refine ⟨fun _ hp => hp, fun f _ => ⟨fun _ hp => hp, fun hx _ => absurd (call_stop hx) (hb _), fun t ht hp hs => hp ?_⟩⟩
    exact (call_again ht).2.1 hs

/-! ## C239: the functions given for the end of the program -/

/-- The function given for the end of the program is called exactly once, also if it throws, if signals arrive meanwhile, or if the
function for Ctrl-C throws; the one of the guard is preferred.  (Unless a function ends the process before, then at most once.) -/
theorem terminate_once (h : Hooks) (beh : Nat → Act) (l : List Past) (o : Origin) (r : List Eff) (hr : run h beh l o = some r) :
    r.countP Eff.isTerm ≤ 1 ∧
    (∀ f, Eff.termHook f ∈ r → h.guardTerm = some f ∨ h.guardTerm = none ∧ h.excTerm = some f) ∧
    ((h.guardTerm.isSome ∨ h.excTerm.isSome) → NoExit beh → r.countP Eff.isTerm = 1) := by
  have hc := (start_fields o l).1
  refine ⟨?_, fun f hm => ?_, fun hh hx => ?_⟩
  · have := term_le h beh 4 _ _ _ hr
    simpa [hc] using this
  · rcases (hooks_which h beh 4 _ _ _ hr).1 f hm with hm | hm
    · simp at hm
    · cases hg : h.guardTerm <;> simp [hg] at hm
      · exact Or.inr ⟨rfl, hm⟩
      · exact Or.inl (by rw [hm])
  · have : ∃ f0, (h.guardTerm.orElse fun _ => h.excTerm) = some f0 := by
      cases hg : h.guardTerm with
      | some g => exact ⟨g, rfl⟩
      | none =>
        cases he : h.excTerm with
        | some g => exact ⟨g, rfl⟩
        | none => simp [hg, he] at hh
    obtain ⟨f0, hf⟩ := this
    have := term_eq h beh f0 hf hx 4 _ _ _ hr
    simpa [hc] using this

example : run { guardTerm := some 7, excTerm := some 8, excCtrl := some 9 } (fun _ => .throw 5) [] (.signal true 3) =
    some [.print (some 3), .ctrlHook 9, .print (some 5), .termHook 7, .print (some 5), .quick] := by decide

/-- The function for Ctrl-C is called only if there was a `SIGINT`, and exactly once if the exception is the first `SIGINT` of the
program.  The full claim, that it is called exactly if the exception is that of `SIGINT`, and once, is false. -/
theorem ctrl_once_partial (h : Hooks) (beh : Nat → Act) (l : List Past) (o : Origin) (r : List Eff) (hr : run h beh l o = some r) :
    (NoInt beh l o → r.countP Eff.isCtrl = 0) ∧
    (∀ f, Eff.ctrlHook f ∈ r → h.guardCtrl = some f ∨ h.guardCtrl = none ∧ h.excCtrl = some f) ∧
    ((h.guardCtrl.isSome ∨ h.excCtrl.isSome) → (∃ e, o = .signal true e) → r.countP Eff.isCtrl = 1) := by
  obtain ⟨-, s2, -, s4, -, -⟩ := start_fields o l
  refine ⟨fun hn => ?_, fun f hm => ?_, fun hh he => ?_⟩
  · have hc : (start o (l.foldl past {})).ctrl = false := by
      rw [← Bool.not_eq_true, s2]
      rintro (hm | ⟨e, he⟩)
      · exact hn.2.1 hm
      · exact hn.2.2 e he
    have := (ctrl_le h beh 4 _ _ _ hr).2 hn.1
    simpa [hc] using this
  · rcases (hooks_which h beh 4 _ _ _ hr).2 f hm with hm | hm
    · simp at hm
    · cases hg : h.guardCtrl <;> simp [hg] at hm
      · exact Or.inr ⟨rfl, hm⟩
      · exact Or.inl (by rw [hm])
  · have h1 := (ctrl_le h beh 4 _ _ _ hr).1
    have hc := s2.2 (Or.inr he)
    have hb := s4.2 he
    rw [hc, hb] at h1
    simp at h1
    have h2 := ctrl_ge h beh hh (start o (l.foldl past {})) hc r hr
    omega

/-- A `SIGINT` that the program caught long ago makes the function for Ctrl-C run when another exception ends the program. -/
theorem old_ctrl_c_counts (h : Hooks) (beh : Nat → Act) (l : List Past) (e : Nat) (r : List Eff)
    (hh : h.guardCtrl.isSome ∨ h.excCtrl.isSome) (hl : Past.signal true ∈ l) (hr : run h beh l (.throw e) = some r) :
    0 < r.countP Eff.isCtrl := by
  obtain ⟨-, s2, -⟩ := start_fields (.throw e) l
  exact ctrl_ge h beh hh _ (s2.2 (Or.inl hl)) r hr

example : run { excCtrl := some 9 } (fun _ => .ret) [.signal true, .exception] (.throw 4) =
    some [.print (some 4), .ctrlHook 9, .quick] := by decide

/-- It then runs twice if Ctrl-C is pressed while it runs. -/
theorem ctrl_twice (h : Hooks) (beh : Nat → Act) (l : List Past) (e e' : Nat) (r : List Eff)
    (hh : h.guardCtrl.isSome ∨ h.excCtrl.isSome) (hl : Past.signal true ∈ l) (hb : beh 1 = .sig true e')
    (hr : run h beh l (.throw e) = some r) : r.countP Eff.isCtrl = 2 := by
  obtain ⟨-, s2, -, s4, -, -⟩ := start_fields (.throw e) l
  have hc := s2.2 (Or.inl hl)
  have hblk : (start (.throw e) (l.foldl past {})).blocked = false := by
    rw [← Bool.not_eq_true, s4]; simp
  have h1 := (ctrl_le h beh 4 _ _ _ hr).1
  rw [hc, hblk] at h1
  simp at h1
  obtain ⟨f, hf⟩ := chosen hh
  simp only [run] at hr
  generalize start (.throw e) (l.foldl past {}) = s at *
  change first (terminate 3 h beh) h beh s [.print s.msg] = some r at hr
  unfold first at hr
  have hcall : call (beh [Eff.print s.msg].length) { s with ctrl := false } =
      .again (record e' (handler true { s with ctrl := false })) := by
    simp [hb, call, hblk]
  rw [if_pos hc, hf] at hr
  simp only [hcall] at hr
  have h2 := ctrl_ge_tr h beh f hf 3 _ _ _ (by rw [(record_fields _ _).2.1]; simp [handler]) hr
  simp [List.countP_cons] at h2
  omega

example : run { excCtrl := some 9 } (fun n => if n = 1 then .sig true 6 else .ret) [.signal true] (.throw 4) =
    some [.print (some 4), .ctrlHook 9, .print (some 6), .ctrlHook 9, .quick] := by decide

/-! ## C240: how the program ends -/

/-- Without signals the program ends with `exit`: buffered output is written and the functions given to `atexit` run.  The full claim,
that it does so unless the exception that ends it is that of a signal, is false. -/
theorem normal_exit_partial (h : Hooks) (beh : Nat → Act) (l : List Past) (o : Origin) (r : List Eff) (hn : NoSignal beh l o)
    (hr : run h beh l o = some r) : r.getLast? = some .exit := by
  obtain ⟨-, -, s3, -⟩ := start_fields o l
  refine last_exit h beh hn.1 4 _ _ _ ?_ hr
  rw [← Bool.not_eq_true, s3]
  rintro (⟨b, hm⟩ | ⟨b, e, he⟩)
  · exact hn.2.1 b hm
  · exact hn.2.2 b e he

example : run { excTerm := some 2 } (fun _ => .throw 5) [.exception] (.throw 4) =
    some [.print (some 4), .termHook 2, .print (some 5), .exit] := by decide

/-- Once a signal was caught, every exception that ends the program later does so without writing out buffered output. -/
theorem caught_signal_loses_output (h : Hooks) (beh : Nat → Act) (l : List Past) (o : Origin) (b : Bool) (r : List Eff)
    (hx : NoExit beh) (hl : Past.signal b ∈ l) (hr : run h beh l o = some r) : r.getLast? = some .quick := by
  obtain ⟨-, -, s3, -⟩ := start_fields o l
  exact last_quick h beh hx 4 _ _ _ (s3.2 (Or.inl ⟨b, hl⟩)) hr

example : run {} (fun _ => .ret) [.signal false] (.throw 4) = some [.print (some 4), .quick] := by decide

/-- The exception that ends the program is the first thing printed.  False if it is thrown while another one unwinds. -/
theorem names_exception_partial (h : Hooks) (beh : Nat → Act) (l : List Past) (o : Origin) (r : List Eff)
    (ho : ∀ e, o ≠ .unwinding e) (hr : run h beh l o = some r) : r.head? = some (.print (some o.exception)) := by
  obtain ⟨-, -, -, -, s5, -⟩ := start_fields o l
  obtain ⟨q, hq⟩ := prefix_all h beh 4 _ _ _ hr
  rw [s5 ho] at hq
  rw [← hq]; rfl

example : ∀ e, Origin.signal false 3 ≠ .unwinding e := by simp

/-- Then nothing is named. -/
theorem unwinding_unnamed (h : Hooks) (beh : Nat → Act) (l : List Past) (e : Nat) (r : List Eff)
    (hr : run h beh l (.unwinding e) = some r) : r.head? = some (.print none) := by
  obtain ⟨-, -, -, -, -, s6⟩ := start_fields (.unwinding e) l
  obtain ⟨q, hq⟩ := prefix_all h beh 4 _ _ _ hr
  rw [s6 ⟨e, rfl⟩] at hq
  rw [← hq]; rfl

example : run {} (fun _ => .ret) [] (.unwinding 4) = some [.print none, .exit] := by decide

end Verif.Except.Terminate
