import Verif.Proc.Exec
import Verif.Str.SplitProps
import Verif.Str.MiscProps
import Verif.Str.SearchProps

/-!
# C78, C79, C80: arguments, environment and standard streams of a started program
-/

namespace Verif.Proc

open Verif.Str

/-! ## Vectors -/

theorem readVec_spec (text : Bytes) : ∀ (ws : List Bytes) (ptrs : List (Option Nat)),
    ptrs.length = ws.length + 1 → ptrs[ws.length]? = some none →
    (∀ i (h : i < ws.length), ∃ p, ptrs[i]? = some (some p) ∧ strAt text p = .ok ws[i]) →
    readVec text ptrs = .ok ws
  | [], ptrs, hl, hn, _ => by
    match ptrs, hl with
    | [x], _ =>
      simp at hn
      subst hn
      rfl
  | w :: ws, ptrs, hl, hn, hp => by
    match ptrs, hl with
    | x :: ptrs, hl =>
      obtain ⟨p, h1, h2⟩ := hp 0 (by simp)
      simp at h1
      subst h1
      simp at h2
      have ih := readVec_spec text ws ptrs (by simpa using hl) (by simpa using hn)
        (fun i h => by
          obtain ⟨q, h3, h4⟩ := hp (i + 1) (by simpa using h)
          exact ⟨q, by simpa using h3, by simpa using h4⟩)
      simp [readVec, h2, ih]

theorem splitVec_spec (s d : Bytes) (hs : NulFree s) (hd : NulFree d) (hne : s ≠ []) (hdne : d ≠ []) :
    ∃ ws, Split d s ws ∧ splitVec s d = .ok (some ws) := by
  obtain ⟨ws, out, h1, h2, _, h4, h5, h6⟩ := str_split_pieces s d hs hd hne hdne
  exact ⟨ws, h1, by simp [splitVec, h2, readVec_spec out.text ws out.ptrs h4 h5 h6]⟩

theorem occ_single {c : UInt8} {s : Bytes} {i : Nat} (h : OccursAt [c] s i) : s[i]? = some c := by
  obtain ⟨_, t, ht⟩ := h
  have h2 : (s.drop i)[0]? = some c := by rw [← ht]; simp
  simpa using h2

theorem no_occ {c : UInt8} {s : Bytes} (h : c ∉ s) (i : Nat) : ¬ OccursAt [c] s i := fun ho =>
  h (List.mem_of_getElem? (occ_single ho))

theorem split_cons {c : UInt8} {w r : Bytes} {ws : List Bytes} (hw : c ∉ w) (h : Split [c] r ws) :
    Split [c] (w ++ [c] ++ r) (w :: ws) := by
  refine .more w r ws (fun i hi ho => ?_) h
  have := occ_single ho
  rw [List.append_assoc, List.getElem?_append_left hi] at this
  exact hw (List.mem_of_getElem? this)

theorem split_join {c : UInt8} : ∀ (ws : List Bytes), ws ≠ [] → (∀ w ∈ ws, c ∉ w) → Split [c] ([c].intercalate ws) ws
  | [], h, _ => absurd rfl h
  | [w], _, h => by
    have : ([c] : Bytes).intercalate [w] = w := by simp [List.intercalate]
    rw [this]
    exact .last w (no_occ (h w (by simp)))
  | w :: v :: ws, _, h => by
    have ih := split_join (v :: ws) (by simp) (fun x hx => h x (by simp [List.mem_cons.1 hx]))
    have e : ([c] : Bytes).intercalate (w :: v :: ws) = w ++ [c] ++ [c].intercalate (v :: ws) := by
      simp [List.intercalate, List.intersperse]
    rw [e]
    exact split_cons (h w (by simp)) ih

theorem split_mem {c : UInt8} {s : Bytes} {ws : List Bytes} (h : Split [c] s ws) : ∀ w ∈ ws, c ∉ w := fun w hw hc => by
  refine h.no_delim (by simp) w hw ?_
  obtain ⟨a, b, rfl⟩ := List.append_of_mem hc
  exact ⟨a, b, by simp⟩

theorem nulFree_append {a b : Bytes} : NulFree (a ++ b) ↔ NulFree a ∧ NulFree b := by
  unfold NulFree
  constructor
  · exact fun h => ⟨fun x hx => h x (by simp [hx]), fun x hx => h x (by simp [hx])⟩
  · rintro ⟨h1, h2⟩ x hx
    rcases List.mem_append.1 hx with h | h
    · exact h1 x h
    · exact h2 x h

theorem execArgv_eq (command : Bytes) (args : Option Bytes) (info : Info) (hc : NulFree command)
    (ha : ∀ a, args = some a → NulFree a) :
    ∃ ws, Split comma (command ++ comma ++ args.getD []) ws ∧
      execArgv command args info = .ok { info with argv := some ws } := by
  have hcm : NulFree comma := by decide
  have key : ∀ a : Bytes, NulFree a → ∃ ws, Split comma (command ++ comma ++ a) ws ∧
      splitVec (command ++ comma ++ a) comma = .ok (some ws) := fun a h =>
    splitVec_spec _ _ (nulFree_append.2 ⟨nulFree_append.2 ⟨hc, hcm⟩, h⟩) hcm (by simp [comma]) (by simp [comma])
  cases args with
  | none =>
    obtain ⟨o, h1, h2⟩ := str_cat_concat [command, comma] (by simp) (by simp [hc, hcm])
    obtain ⟨ws, h3, h4⟩ := key [] (by simp [NulFree])
    refine ⟨ws, h3, ?_⟩
    simp only [List.map] at h1
    simp only [List.flatten_cons, List.flatten_nil] at h2
    simp only [List.append_nil] at h2 h4
    simp only [execArgv, h1, h2, h4, Res.ok_bind]
  | some a =>
    have hA := ha a rfl
    obtain ⟨o, h1, h2⟩ := str_cat_concat [command, comma, a] (by simp) (by simp [hc, hcm, hA])
    obtain ⟨ws, h3, h4⟩ := key a hA
    refine ⟨ws, h3, ?_⟩
    simp only [List.map] at h1
    simp only [List.flatten_cons, List.flatten_nil, List.append_nil] at h2
    rw [← List.append_assoc] at h2
    simp only [execArgv, h1, h2, h4, Res.ok_bind]

/-! ## The rest of `exec` does not touch the vectors -/

theorem child_argv {sidOk runnable : Bool} {file : Bytes} {info : Info} {fds : Fds} {f : Bytes} {argv env : List Bytes}
    {fds' : Fds} {s : Bool} (h : child sidOk runnable file info fds = .runs f argv env fds' s) :
    f = file ∧ argv = info.argv.getD [] ∧ env = info.env.getD [] ∧ s = info.detached := by
  unfold child at h
  split at h
  · cases h
  split at h
  · cases h
  split at h
  · cases h
  split at h
  · cases h
  unfold execve at h
  split at h
  · cases h
    exact ⟨rfl, rfl, rfl, rfl⟩
  · cases h

/-- The record that `exec_info` fills in, apart from the environment. -/
def streams (info : Info) (detached : Bool) (i o e : Int) : Info :=
  { info with
    detached := detached
    wi1 := if i ≠ 0 then i else inherit
    ro1 := if o ≠ 0 then o else inherit
    er1 := if e ≠ 0 then e else inherit }

/-- The environment that `exec_info` takes from its argument. -/
def takesEnv (env : Option Bytes) : Prop := ∃ e, env = some e ∧ 61 ∈ e ∧ 59 ∈ e

theorem infix_single {c : UInt8} {s : Bytes} : [c] <:+: s ↔ c ∈ s := by
  constructor
  · rintro ⟨a, b, rfl⟩
    simp
  · intro h
    obtain ⟨a, b, rfl⟩ := List.append_of_mem h
    exact ⟨a, b, by simp⟩

theorem execInfo_none {env : Option Bytes} {detached : Bool} {i o e : Int}
    (he : ∀ v, env = some v → NulFree v ∧ v.length < 2 ^ 31) (h : ¬ takesEnv env) :
    execInfo env detached i o e = .ok (streams freshInfo detached i o e) := by
  cases env with
  | none =>
    unfold execInfo streams
    simp only [Res.ok_bind]
    split_ifs <;> rfl
  | some v =>
    obtain ⟨h0, hl⟩ := he v rfl
    have h1 := str_has_iff_infix v eqs h0 (by decide) hl
    have h2 := str_has_iff_infix v semi h0 (by decide) hl
    have h3 : (decide (eqs <:+: v) && decide (semi <:+: v)) = false := by
      rw [Bool.and_eq_false_iff, decide_eq_false_iff_not, decide_eq_false_iff_not]
      by_contra hc
      push Not at hc
      exact h ⟨v, rfl, infix_single.1 hc.1, infix_single.1 hc.2⟩
    unfold execInfo streams
    simp only [h1, Res.ok_bind]
    by_cases hq : eqs <:+: v
    · simp only [hq, decide_true, if_true, h2, Res.ok_bind]
      simp only [hq, decide_true] at h3
      simp only [h3]
      simp only [Bool.false_eq_true, if_false, Res.ok_bind]
      split_ifs <;> rfl
    · simp only [hq, decide_false]
      simp only [Bool.false_eq_true, if_false, Res.ok_bind, Bool.and_false]
      split_ifs <;> rfl

theorem execInfo_some {v : Bytes} {detached : Bool} {i o e : Int} (h0 : NulFree v) (hl : v.length < 2 ^ 31)
    (h1 : 61 ∈ v) (h2 : 59 ∈ v) :
    ∃ ws, Split semi v ws ∧
      execInfo (some v) detached i o e = .ok (streams { freshInfo with env := some ws } detached i o e) := by
  obtain ⟨ws, h3, h4⟩ := splitVec_spec v semi h0 (by decide) (by rintro rfl; simp at h1) (by decide)
  refine ⟨ws, h3, ?_⟩
  have h5 := str_has_iff_infix v eqs h0 (by decide) hl
  have h6 := str_has_iff_infix v semi h0 (by decide) hl
  have h7 : eqs <:+: v := infix_single.2 h1
  have h8 : semi <:+: v := infix_single.2 h2
  unfold execInfo streams
  simp only [h5, h6, h7, h8, decide_true, Res.ok_bind, if_true, Bool.and_self, h4]
  split_ifs <;> rfl

/-- `exec` never reads out of bounds or an unterminated vector, and its outcome is that of the child's side on a record whose
vectors are known. -/
theorem exec_eq (sidOk runnable : Bool) (command : Bytes) (args env : Option Bytes) (detached : Bool) (i o e : Int)
    (fds : Fds) (hc : NulFree command) (ha : ∀ a, args = some a → NulFree a)
    (he : ∀ v, env = some v → NulFree v ∧ v.length < 2 ^ 31) :
    ∃ argv envv, Split comma (command ++ comma ++ args.getD []) argv ∧
      (takesEnv env → ∃ ws, envv = some ws ∧ Split semi (env.getD []) ws) ∧ (¬ takesEnv env → envv = none) ∧
      exec sidOk runnable command args env detached i o e fds =
        .ok (child sidOk runnable command (streams { freshInfo with argv := some argv, env := envv } detached i o e) fds) := by
  by_cases ht : takesEnv env
  · obtain ⟨v, rfl, h1, h2⟩ := ht
    obtain ⟨h0, hl⟩ := he v rfl
    obtain ⟨ws, h3, h4⟩ := execInfo_some (detached := detached) (i := i) (o := o) (e := e) h0 hl h1 h2
    obtain ⟨argv, h5, h6⟩ := execArgv_eq command args (streams { freshInfo with env := some ws } detached i o e) hc ha
    refine ⟨argv, some ws, h5, fun _ => ⟨ws, rfl, h3⟩, fun h => absurd ⟨v, rfl, h1, h2⟩ h, ?_⟩
    simp only [exec, h4, h6, Res.ok_bind]
    rfl
  · have h4 := execInfo_none (detached := detached) (i := i) (o := o) (e := e) he ht
    obtain ⟨argv, h5, h6⟩ := execArgv_eq command args (streams freshInfo detached i o e) hc ha
    refine ⟨argv, none, h5, fun h => absurd h ht, fun _ => rfl, ?_⟩
    simp only [exec, h4, h6, Res.ok_bind]
    rfl

/-! ## C78: arguments -/

/-- C78 (`"arg1,arg2,arg3,..."`): a program that is run receives its command as argument 0, followed by exactly the given
arguments, in order, provided that no argument contains a comma, which is how `exec` separates them. -/
theorem arguments_exact_partial (sidOk runnable : Bool) (command : Bytes) (as : List Bytes) (env : Option Bytes)
    (detached : Bool) (i o e : Int) (fds : Fds) (hc : NulFree command) (hcc : 44 ∉ command) (hne : as ≠ [])
    (ha : NulFree (comma.intercalate as)) (hac : ∀ a ∈ as, 44 ∉ a)
    (he : ∀ v, env = some v → NulFree v ∧ v.length < 2 ^ 31) :
    ∃ c, exec sidOk runnable command (some (comma.intercalate as)) env detached i o e fds = .ok c ∧
      ∀ f argv envv fds' s, c = .runs f argv envv fds' s → f = command ∧ argv = command :: as := by
  obtain ⟨argv, envv, h1, _, _, h2⟩ := exec_eq sidOk runnable command (some (comma.intercalate as)) env detached i o e fds hc
    (fun a h => by cases h; exact ha) he
  refine ⟨_, h2, fun f argv' env' fds' s h => ?_⟩
  obtain ⟨h3, h4, _, _⟩ := child_argv h
  refine ⟨h3, ?_⟩
  rw [h4]
  exact h1.unique (split_cons hcc (split_join as hne hac))

/-- C78, what is missing: an argument with a comma in it cannot be passed at all; whatever the argument string, no argument
of the program contains a comma. -/
theorem no_argument_with_comma (sidOk runnable : Bool) (command : Bytes) (args env : Option Bytes) (detached : Bool)
    (i o e : Int) (fds : Fds) (hc : NulFree command) (ha : ∀ a, args = some a → NulFree a)
    (he : ∀ v, env = some v → NulFree v ∧ v.length < 2 ^ 31) (f : Bytes) (argv envv : List Bytes) (fds' : Fds) (s : Bool)
    (h : exec sidOk runnable command args env detached i o e fds = .ok (.runs f argv envv fds' s)) :
    ∀ a ∈ argv, 44 ∉ a := by
  obtain ⟨av, ev, h1, _, _, h2⟩ := exec_eq sidOk runnable command args env detached i o e fds hc ha he
  rw [h2] at h
  obtain ⟨_, h3, _, _⟩ := child_argv (Res.ok.inj h)
  rw [h3]
  exact split_mem h1

/-- C78, what is missing: without arguments (`NULL`) the program does not receive just its name: there is always one empty
argument more. -/
theorem null_arguments_get_one (sidOk runnable : Bool) (command : Bytes) (env : Option Bytes) (detached : Bool)
    (i o e : Int) (fds : Fds) (hc : NulFree command) (hcc : 44 ∉ command)
    (he : ∀ v, env = some v → NulFree v ∧ v.length < 2 ^ 31) (f : Bytes) (argv envv : List Bytes) (fds' : Fds) (s : Bool)
    (h : exec sidOk runnable command none env detached i o e fds = .ok (.runs f argv envv fds' s)) :
    argv = [command, []] := by
  obtain ⟨av, ev, h1, _, _, h2⟩ := exec_eq sidOk runnable command none env detached i o e fds hc (by simp) he
  rw [h2] at h
  obtain ⟨_, h3, _, _⟩ := child_argv (Res.ok.inj h)
  rw [h3]
  refine h1.unique (split_cons hcc ?_)
  exact .last [] (no_occ (by simp))

/-! ## C79: environment -/

/-- C79 (`"Key1=Value1;Key2=Value2"`): a program started with an environment of several assignments has exactly these, in
order.  Values cannot contain a semicolon.  Missing: one assignment alone, and no environment at all; see below. -/
theorem environment_exact_partial (sidOk runnable : Bool) (command : Bytes) (args : Option Bytes) (vs : List Bytes)
    (detached : Bool) (i o e : Int) (fds : Fds) (hc : NulFree command) (ha : ∀ a, args = some a → NulFree a)
    (hn : NulFree (semi.intercalate vs)) (hl : (semi.intercalate vs).length < 2 ^ 31) (hlen : 2 ≤ vs.length)
    (hs : ∀ v ∈ vs, 59 ∉ v) (hq : ∃ v ∈ vs, 61 ∈ v) :
    ∃ c, exec sidOk runnable command args (some (semi.intercalate vs)) detached i o e fds = .ok c ∧
      ∀ f argv envv fds' s, c = .runs f argv envv fds' s → envv = vs := by
  have hsp : Split semi (semi.intercalate vs) vs := split_join vs (by rintro rfl; simp at hlen) hs
  have mem : ∀ (l : List Bytes) (v : Bytes), v ∈ l → ∀ x ∈ v, x ∈ semi.intercalate l := by
    intro l
    induction l with
    | nil => simp
    | cons w l ih =>
      intro v hv x hx
      cases l with
      | nil =>
        simp at hv
        subst hv
        simpa [List.intercalate] using hx
      | cons w' l =>
        have e : semi.intercalate (w :: w' :: l) = w ++ semi ++ semi.intercalate (w' :: l) := by
          simp [List.intercalate, List.intersperse]
        rw [e]
        rcases List.mem_cons.1 hv with rfl | hv
        · simp [hx]
        · have := ih v hv x hx
          simp [this]
  have ht : takesEnv (some (semi.intercalate vs)) := by
    refine ⟨_, rfl, ?_, ?_⟩
    · obtain ⟨v, hv, hx⟩ := hq
      exact mem vs v hv 61 hx
    · match vs, hlen with
      | w :: w' :: l, _ =>
        have e : semi.intercalate (w :: w' :: l) = w ++ semi ++ semi.intercalate (w' :: l) := by
          simp [List.intercalate, List.intersperse]
        rw [e]
        simp [semi]
  obtain ⟨av, ev, _, h1, _, h2⟩ := exec_eq sidOk runnable command args (some (semi.intercalate vs)) detached i o e fds hc ha
    (fun v h => by cases h; exact ⟨hn, hl⟩)
  obtain ⟨ws, h3, h4⟩ := h1 ht
  refine ⟨_, h2, fun f argv' env' fds' s h => ?_⟩
  obtain ⟨_, _, h5, _⟩ := child_argv h
  rw [h5, show (streams { freshInfo with argv := some av, env := ev } detached i o e).env = ev from rfl, h3]
  exact h4.unique hsp

/-- C79 is false for no environment ("If `NULL` parents environment used"): the program is run with an empty one. -/
theorem null_environment_is_empty (sidOk runnable : Bool) (command : Bytes) (args : Option Bytes) (detached : Bool)
    (i o e : Int) (fds : Fds) (hc : NulFree command) (ha : ∀ a, args = some a → NulFree a) (f : Bytes)
    (argv envv : List Bytes) (fds' : Fds) (s : Bool)
    (h : exec sidOk runnable command args none detached i o e fds = .ok (.runs f argv envv fds' s)) : envv = [] := by
  obtain ⟨av, ev, _, _, h1, h2⟩ := exec_eq sidOk runnable command args none detached i o e fds hc ha (by simp)
  rw [h2] at h
  obtain ⟨_, _, h3, _⟩ := child_argv (Res.ok.inj h)
  rw [h3, show (streams { freshInfo with argv := some av, env := ev } detached i o e).env = ev from rfl,
    h1 (by rintro ⟨_, h, _⟩; cases h)]
  rfl

/-- C79 is false for a single assignment without a semicolon: it is dropped, the environment is empty. -/
theorem single_assignment_dropped (sidOk runnable : Bool) (command : Bytes) (args : Option Bytes) (v : Bytes)
    (detached : Bool) (i o e : Int) (fds : Fds) (hc : NulFree command) (ha : ∀ a, args = some a → NulFree a)
    (hv : NulFree v) (hl : v.length < 2 ^ 31) (hs : 59 ∉ v) (f : Bytes)
    (argv envv : List Bytes) (fds' : Fds) (s : Bool)
    (h : exec sidOk runnable command args (some v) detached i o e fds = .ok (.runs f argv envv fds' s)) : envv = [] := by
  obtain ⟨av, ev, _, _, h1, h2⟩ := exec_eq sidOk runnable command args (some v) detached i o e fds hc ha
    (fun x h => by cases h; exact ⟨hv, hl⟩)
  rw [h2] at h
  obtain ⟨_, _, h3, _⟩ := child_argv (Res.ok.inj h)
  rw [h3, show (streams { freshInfo with argv := some av, env := ev } detached i o e).env = ev from rfl,
    h1 (by rintro ⟨x, h, _, h59⟩; cases h; exact hs h59)]
  rfl

end Verif.Proc
