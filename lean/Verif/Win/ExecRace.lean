import Mathlib.Logic.Function.Basic

/-!
# Programs started by several threads on Windows (`src/os_windows.c` 25, 770-771, 806-818), C261

`exec` puts the name of the program into one static buffer, makes the command line from the buffer and hands the buffer to
`CreateProcessA`.  Every thread is a machine of its own; the schedule is arbitrary.  How the name gets its `.exe` and the
arguments their spaces is in `Verif.Win.CmdLine` (C227) and left out here: `c` is the name with its ending, `a` the arguments with
spaces.
-/

namespace Verif.Win.ExecRace

/-- Where a thread stands in `exec(c, a, info)`. -/
inductive Pc where
  | out
  /-- The name is in the buffer, 808. -/
  | wrote (c a : String)
  /-- The command line is made, 810-814. -/
  | joined (c a line : String)
  /-- `CreateProcessA(app, line)` was called, 817, 744. -/
  | started (c a app line : String)
  deriving DecidableEq

/-- `buf` is `os_exec_command`, 25. -/
structure St where
  buf : String
  pc : Nat → Pc

inductive Ev where
  | call (t : Nat) (c a : String)
  | run (t : Nat)
  deriving DecidableEq

/-- The call writes the buffer.  Simplified: `snprintf` is one step (another thread could also find a part of the name). -/
def step (s : St) : Ev → St
  | .call t c a =>
    match s.pc t with
    | .out => ⟨c, Function.update s.pc t (.wrote c a)⟩
    | .started _ _ _ _ => ⟨c, Function.update s.pc t (.wrote c a)⟩
    | _ => s
  | .run t =>
    match s.pc t with
    | .wrote c a => { s with pc := Function.update s.pc t (.joined c a (s.buf ++ " " ++ a)) }
    | .joined c a line => { s with pc := Function.update s.pc t (.started c a s.buf line) }
    | _ => s

def exec (s : St) (es : List Ev) : St := es.foldl step s

def init : St := ⟨"", fun _ => .out⟩

/-! ## Specification -/

/-- A thread is inside `exec`. -/
def inside : Pc → Bool
  | .wrote _ _ => true
  | .joined _ _ _ => true
  | _ => false

/-- No thread calls `exec` while another is inside. -/
def OneAtATime (s : St) : List Ev → Prop
  | [] => True
  | e :: es => (match e with
      | .call t _ _ => ∀ u, u ≠ t → inside (s.pc u) = false
      | .run _ => True) ∧ OneAtATime (step s e) es

/-- Thread `t`'s last call of `exec`, if it is over, started what it asked for. -/
def Right (s : St) (t : Nat) : Prop := ∀ c a app line, s.pc t = .started c a app line → app = c ∧ line = c ++ " " ++ a

/-! ## Proofs -/

/-- What a thread's place says about the buffer. -/
def Place (buf : String) : Pc → Prop
  | .out => True
  | .wrote c _ => buf = c
  | .joined c a line => buf = c ∧ line = c ++ " " ++ a
  | .started c a app line => app = c ∧ line = c ++ " " ++ a

structure Inv (s : St) : Prop where
  place : ∀ t, Place s.buf (s.pc t)
  one : ∀ t u, inside (s.pc t) = true → inside (s.pc u) = true → t = u

theorem place_other {b b' : String} {p : Pc} (h : inside p = false) (hp : Place b p) : Place b' p := by
  cases p <;> simp_all [Place, inside]

theorem move_inv {s : St} (h : Inv s) (t : Nat) (p : Pc) (hp : Place s.buf p) (hi : inside p = true → inside (s.pc t) = true) :
    Inv { s with pc := Function.update s.pc t p } := by
  have g : ∀ v, inside (Function.update s.pc t p v) = true → inside (s.pc v) = true := by
    intro v hv
    by_cases e : v = t
    · subst e; simp at hv; exact hi hv
    · rwa [Function.update_of_ne e] at hv
  refine ⟨fun v => ?_, fun v w hv hw => h.one v w (g v hv) (g w hw)⟩
  by_cases e : v = t
  · subst e; simpa using hp
  · simp only [Function.update_of_ne e]; exact h.place v

theorem call_inv {s : St} (h : Inv s) (t : Nat) (c a : String) (hn : ∀ u, u ≠ t → inside (s.pc u) = false) :
    Inv ⟨c, Function.update s.pc t (.wrote c a)⟩ := by
  have g : ∀ v, inside (Function.update s.pc t (Pc.wrote c a) v) = true → v = t := by
    intro v hv
    by_contra e
    rw [Function.update_of_ne e, hn v e] at hv
    simp at hv
  refine ⟨fun v => ?_, fun v w hv hw => (g v hv).trans (g w hw).symm⟩
  by_cases e : v = t
  · subst e; simp [Place]
  · simp only [Function.update_of_ne e]
    exact place_other (hn v e) (h.place v)

theorem step_inv {s : St} (h : Inv s) (e : Ev) (hn : match e with
      | .call t _ _ => ∀ u, u ≠ t → inside (s.pc u) = false
      | .run _ => True) : Inv (step s e) := by
  cases e with
  | call t c a =>
    cases hp : s.pc t with
    | out => simp only [step, hp]; exact call_inv h t c a hn
    | started => simp only [step, hp]; exact call_inv h t c a hn
    | wrote => simp only [step, hp]; exact h
    | joined => simp only [step, hp]; exact h
  | run t =>
    have hpl := h.place t
    cases hp : s.pc t with
    | out => simp only [step, hp]; exact h
    | started => simp only [step, hp]; exact h
    | wrote c a =>
      simp only [step, hp]
      rw [hp] at hpl
      exact move_inv h t _ ⟨hpl, by rw [show s.buf = c from hpl]⟩ (by rw [hp]; exact id)
    | joined c a line =>
      simp only [step, hp]
      rw [hp] at hpl
      exact move_inv h t _ ⟨hpl.1, hpl.2⟩ (by simp [inside])

theorem exec_inv : ∀ (es : List Ev) (s : St), Inv s → OneAtATime s es → Inv (exec s es)
  | [], _, h, _ => h
  | e :: es, s, h, hn => exec_inv es (step s e) (step_inv h e hn.1) hn.2

/-- The names asked for. -/
def named : List Ev → List String
  | [] => []
  | .call _ c _ :: es => c :: named es
  | .run _ :: es => named es

theorem exec_named : ∀ (es : List Ev) (s : St) (l : List String),
    (s.buf = "" ∧ (∀ t, s.pc t = .out) ∨ s.buf ∈ l) → (∀ t c a app line, s.pc t = .started c a app line → app ∈ l) →
    ∀ t c a app line, (exec s es).pc t = .started c a app line → app ∈ l ++ named es
  | [], s, l, _, h, t, c, a, app, line, hs => by simpa [named] using h t c a app line hs
  | .call v c' a' :: es, s, l, hb, h, t, c, a, app, line, hs => by
    have := exec_named es (step s (.call v c' a')) (l ++ [c']) (by
        cases hp : s.pc v <;> simp only [step, hp]
        · simp
        · rcases hb with ⟨_, hb⟩ | hb
          · rw [hb v] at hp; simp at hp
          · simp [hb]
        · rcases hb with ⟨_, hb⟩ | hb
          · rw [hb v] at hp; simp at hp
          · simp [hb]
        · simp) (fun t c a app line hh => by
        have : app ∈ l := by
          cases hp : s.pc v <;> simp only [step, hp] at hh <;> first
            | exact h t _ _ _ _ hh
            | (by_cases e : t = v
               · subst e; simp at hh
               · rw [Function.update_of_ne e] at hh; exact h t _ _ _ _ hh)
        simp [this]) t c a app line hs
    simpa [named, List.append_assoc] using this
  | .run v :: es, s, l, hb, h, t, c, a, app, line, hs => by
    have := exec_named es (step s (.run v)) l (by
        rcases hb with ⟨hb, hb'⟩ | hb
        · left; simp only [step, hb' v]; exact ⟨hb, hb'⟩
        · right; cases hp : s.pc v <;> simp only [step, hp] <;> exact hb) (fun t c a app line hh => by
        cases hp : s.pc v with
        | out => simp only [step, hp] at hh; exact h t _ _ _ _ hh
        | started => simp only [step, hp] at hh; exact h t _ _ _ _ hh
        | wrote =>
          simp only [step, hp] at hh
          by_cases e : t = v
          · subst e; simp at hh
          · rw [Function.update_of_ne e] at hh; exact h t _ _ _ _ hh
        | joined =>
          simp only [step, hp] at hh
          by_cases e : t = v
          · subst e
            simp at hh
            rcases hb with ⟨_, hb⟩ | hb
            · rw [hb t] at hp; simp at hp
            · rw [← hh.2.2.1]; exact hb
          · rw [Function.update_of_ne e] at hh; exact h t _ _ _ _ hh) t c a app line hs
    simpa [named] using this

/-! ## C261 -/

/-- **C261** (full statement: every `exec` starts the program it names with the arguments given, whatever other threads do;
false).  It holds as long as no thread calls `exec` while another is inside. -/
theorem own_program_partial (es : List Ev) (h : OneAtATime init es) (t : Nat) : Right (exec init es) t := by
  intro c a app line ht
  have := (exec_inv es init ⟨fun _ => trivial, fun _ _ h => by simp [init, inside] at h⟩ h).place t
  rw [ht] at this
  exact this

/-- **C261**, false of the code: for every state and any two programs there is a schedule in which a thread that asked for `c`
starts `d`, named by the other thread, with a command line that says `c`. -/
theorem other_program (s : St) (t u : Nat) (htu : t ≠ u) (ht : s.pc t = .out) (hu : s.pc u = .out) (c a d b : String) :
    ∃ es, (exec s es).pc t = .started c a d (c ++ " " ++ a) := by
  have hut : u ≠ t := fun h => htu h.symm
  exact ⟨[.call t c a, .run t, .call u d b, .run t], by simp [exec, step, ht, hu, htu, hut]⟩

/-- **C261**, false of the code: and one in which the other program gets the arguments meant for the first, and the first is not
started at all. -/
theorem other_program_own_arguments (s : St) (t u : Nat) (htu : t ≠ u) (ht : s.pc t = .out) (hu : s.pc u = .out)
    (c a d b : String) :
    ∃ es, (exec s es).pc t = .started c a d (d ++ " " ++ a) ∧ (exec s es).pc u = .started d b d (d ++ " " ++ b) := by
  have hut : u ≠ t := fun h => htu h.symm
  exact ⟨[.call t c a, .call u d b, .run t, .run t, .run u, .run u], by simp [exec, step, ht, hu, htu, hut]⟩

/-- **C261.** Whatever the schedule, a program started is one that some call has named. -/
theorem named_program (es : List Ev) (t : Nat) (c a app line : String)
    (h : (exec init es).pc t = .started c a app line) : app ∈ named es := by
  have := exec_named es init [] (Or.inl ⟨rfl, fun _ => rfl⟩) (fun _ _ _ _ _ h => by simp [init] at h) t c a app line h
  simpa using this

example : OneAtATime init [.call 0 "a.exe" "x", .run 0, .run 0, .call 1 "b.exe" "y", .run 1, .run 1] ∧
    (exec init [.call 0 "a.exe" "x", .run 0, .run 0, .call 1 "b.exe" "y", .run 1, .run 1]).pc 0 =
      .started "a.exe" "x" "a.exe" "a.exe x" := by
  constructor
  · simp only [OneAtATime, step, init]
    refine ⟨fun _ _ => rfl, trivial, trivial, fun u hu => ?_, trivial, trivial, trivial⟩
    by_cases h0 : u = 0 <;> simp [Function.update, h0, inside]
  · decide
example : (exec init [.call 0 "list.exe" "c:/data", .call 1 "erase.exe" "c:/tmp", .run 0, .run 0]).pc 0 =
    .started "list.exe" "c:/data" "erase.exe" "erase.exe c:/data" := by decide

end Verif.Win.ExecRace
