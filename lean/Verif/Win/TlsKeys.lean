import Mathlib.Data.List.Basic
import Verif.Basic

/-!
# Keys of thread-local storage with destructors on 32 bit Windows, C213, C214

`src/os_windows.c` 1193-1250 and `src/rpmalloc.c` 358-416 have the same code: a table of destructors beside the keys of Windows.

Simplified: one thread (the values of the others are of no consequence here); values are numbers, 0 is `NULL`.
-/

namespace Verif.Win.TlsKeys

/-- `slots` is `impl_emulate_dtorbl` (os_windows.c:1193-1196): `none` is an entry without destructor; a key `none` is `0xFFFFFFFF`.
`keys`: the keys that Windows has given out; `vals`: the values of the thread. -/
structure St where
  slots : List (Option (Option Nat × Nat))
  keys : List Nat := []
  vals : Nat → Nat := fun _ => 0

/-- `impl_tls_dtor_register` (os_windows.c:1198-1212): the first free entry; `none` if there is none. -/
def register : List (Option (Option Nat × Nat)) → Option Nat × Nat → Option (List (Option (Option Nat × Nat)))
  | [], _ => none
  | none :: l, x => some (some x :: l)
  | some y :: l, x => (register l x).map (some y :: ·)

/-- `os_tls_alloc` (os_windows.c:1226-1238).  `k` is what `TlsAlloc` gives; a new key has the value `NULL`.  The result is `none` for
-1. -/
def alloc (s : St) (k : Option Nat) (d : Option Nat) : St × Option Nat :=
  let s1 := match k with
    | none => s
    | some k => { s with keys := k :: s.keys, vals := fun x => if x = k then 0 else s.vals x }
  match d with
  | none => (s1, k)
  | some d =>
    match register s1.slots (k, d) with
    | none => (match k with
      | none => (s1, none)
      | some k => ({ s1 with keys := s1.keys.erase k }, none))
    | some l => ({ s1 with slots := l }, k)

/-- `os_tls_free` (os_windows.c:1240-1242): the table is left alone. -/
def free (s : St) (k : Nat) : St := { s with keys := s.keys.erase k }

/-- `os_tls_get` (os_windows.c:1244-1246). -/
def get (s : St) (k : Option Nat) : Nat :=
  match k with
  | none => 0
  | some k => if k ∈ s.keys then s.vals k else 0

/-- `os_tls_set` (os_windows.c:1248-1250). -/
def set (s : St) (k v : Nat) : St := if k ∈ s.keys then { s with vals := fun x => if x = k then v else s.vals x } else s

/-- `impl_tls_dtor_invoke` (os_windows.c:1214-1224): the calls of destructors, each with its argument. -/
def invoke (s : St) : List (Nat × Nat) :=
  s.slots.filterMap fun e => match e with
    | none => none
    | some (k, d) => if get s k = 0 then none else some (d, get s k)

/-- The two libraries: `rpmalloc.c` calls `impl_tls_dtor_invoke` when a thread ends (rpmalloc.c:859), `os_windows.c` nowhere. -/
inductive Lib where
  | events
  | allocator
  deriving DecidableEq

/-- What is called when the thread ends. -/
def threadEnds (b : Lib) (s : St) : List (Nat × Nat) :=
  match b with
  | .events => []
  | .allocator => invoke s

/-- Calls of the user, with what Windows answers to `TlsAlloc`. -/
inductive Op where
  | alloc (k : Option Nat) (d : Option Nat)
  | free (k : Nat)
  | set (k v : Nat)

def step (s : St) : Op → St
  | .alloc k d => (alloc s k d).1
  | .free k => free s k
  | .set k v => set s k v

def run (s : St) (l : List Op) : St := l.foldl step s

/-- Windows gives no key that is in use, and `free` and `set` are called with keys that are. -/
def Legal : St → List Op → Prop
  | _, [] => True
  | s, .alloc k d :: l => (∀ x, k = some x → x ∉ s.keys) ∧ Legal (step s (.alloc k d)) l
  | s, .free k :: l => k ∈ s.keys ∧ Legal (step s (.free k)) l
  | s, .set k v :: l => k ∈ s.keys ∧ Legal (step s (.set k v)) l

def start (n : Nat) : St := { slots := List.replicate n none }

/-! ## Specification -/

/-- What the user knows: the keys in use, oldest first, each with its destructor and value.  The result of `alloc` is told to the user. -/
structure Key where
  key : Nat
  dtor : Option Nat
  val : Nat := 0

def specStep (w : List Key) (o : Op) (res : Option Nat) : List Key :=
  match o with
  | .alloc _ d => match res with
    | none => w
    | some k => w ++ [{ key := k, dtor := d }]
  | .free k => w.filter (·.key ≠ k)
  | .set k v => w.map fun e => if e.key = k then { e with val := v } else e

/-- The user's knowledge after a run. -/
def known : St → List Key → List Op → List Key
  | _, w, [] => w
  | s, w, o :: l => known (step s o) (specStep w o (match o with | .alloc k d => (alloc s k d).2 | _ => none)) l

/-- What is due at the end of the thread: each value that is not `NULL` goes to the destructor of its key. -/
def due (w : List Key) : List (Nat × Nat) :=
  w.filterMap fun e => match e.dtor with
    | none => none
    | some d => if e.val = 0 then none else some (d, e.val)

/-! ## Lemmas -/

theorem register_spec (l : List (Option Nat × Nat)) (n : Nat) (x : Option Nat × Nat) :
    register (l.map some ++ List.replicate n none) x =
      if n = 0 then none else some ((l ++ [x]).map some ++ List.replicate (n - 1) none) := by
  induction l with
  | nil =>
    cases n with
    | zero => rfl
    | succ n => simp [register, List.replicate_succ]
  | cons a l ih =>
    simp only [List.map_cons, List.cons_append, register, ih]
    split <;> simp

theorem register_full (l : List (Option Nat × Nat)) (x : Option Nat × Nat) : register (l.map some) x = none := by
  have := register_spec l 0 x
  simpa using this

/-- The state and what the user knows, while no key is freed. -/
structure Inv (s : St) (w : List Key) : Prop where
  shape : ∃ (l : List (Option Nat × Nat)) (n : Nat), s.slots = l.map some ++ List.replicate n none ∧
    l.filterMap (fun e => e.1.map fun k => (k, e.2)) = w.filterMap (fun e => e.dtor.map fun d => (e.key, d))
  keys : ∀ k, k ∈ s.keys ↔ k ∈ w.map (·.key)
  nodup : s.keys.Nodup
  wnodup : (w.map (·.key)).Nodup
  vals : ∀ e ∈ w, s.vals e.key = e.val

theorem step_alloc {s : St} {w : List Key} (hi : Inv s w) (k d : Option Nat) (hk : ∀ x, k = some x → x ∉ s.keys) :
    Inv (alloc s k d).1 (specStep w (.alloc k d) (alloc s k d).2) := by
  obtain ⟨⟨l, n, h1, h2⟩, h3, h4, h5, h6⟩ := hi
  cases k with
  | none =>
    cases d with
    | none => exact ⟨⟨l, n, h1, h2⟩, h3, h4, h5, h6⟩
    | some d =>
      simp only [alloc, h1, register_spec]
      by_cases hn : n = 0
      · simp only [hn, if_true, specStep]
        exact ⟨⟨l, n, h1, h2⟩, h3, h4, h5, h6⟩
      · simp only [hn, if_false, specStep]
        refine ⟨⟨l ++ [(none, d)], n - 1, by simp, ?_⟩, h3, h4, h5, h6⟩
        rw [List.filterMap_append, h2]; simp
  | some k =>
    have hnew := hk k rfl
    have hw : k ∉ w.map (·.key) := fun h => hnew ((h3 k).2 h)
    have hv : ∀ e ∈ w ++ [{ key := k, dtor := d }], (fun x => if x = k then 0 else s.vals x) e.key = e.val := by
      intro e he
      rcases List.mem_append.1 he with he | he
      · have : e.key ≠ k := fun hh => hw (hh ▸ List.mem_map_of_mem he)
        simp [this, h6 e he]
      · simp at he; subst he; simp
    have hkeys : ∀ x, x ∈ k :: s.keys ↔ x ∈ (w ++ [({ key := k, dtor := d } : Key)]).map (·.key) := by
      intro x
      rw [List.map_append, List.mem_append, List.mem_cons, h3 x]; simp [or_comm]
    have hwn : ((w ++ [({ key := k, dtor := d } : Key)]).map (·.key)).Nodup := by
      rw [List.map_append, List.nodup_append]
      refine ⟨h5, by simp, ?_⟩
      intro a ha b hb
      simp at hb; subst hb
      rintro rfl; exact hw ha
    cases d with
    | none =>
      simp only [alloc, specStep]
      exact ⟨⟨l, n, h1, by rw [h2]; simp⟩, hkeys, List.nodup_cons.2 ⟨hnew, h4⟩, hwn, hv⟩
    | some d =>
      simp only [alloc, h1, register_spec]
      by_cases hn : n = 0
      · simp only [hn, if_true, specStep]
        refine ⟨⟨l, 0, rfl, h2⟩, by simpa using h3, by simpa using h4, h5, ?_⟩
        intro e he
        have : e.key ≠ k := fun hh => hw (hh ▸ List.mem_map_of_mem he)
        simp [this, h6 e he]
      · simp only [hn, if_false, specStep]
        refine ⟨⟨l ++ [(some k, d)], n - 1, by simp, ?_⟩, hkeys, List.nodup_cons.2 ⟨hnew, h4⟩, hwn, hv⟩
        rw [List.filterMap_append, List.filterMap_append, h2]; simp

theorem step_set {s : St} {w : List Key} (hi : Inv s w) (k v : Nat) (hk : k ∈ s.keys) : Inv (set s k v) (specStep w (.set k v) none) := by
  obtain ⟨⟨l, n, h1, h2⟩, h3, h4, h5, h6⟩ := hi
  have hm : (w.map fun e => if e.key = k then { e with val := v } else e).map (·.key) = w.map (·.key) := by
    rw [List.map_map]; apply List.map_congr_left; intro e _; simp only [Function.comp]; split <;> rfl
  simp only [set, hk, if_true, specStep]
  refine ⟨⟨l, n, h1, ?_⟩, ?_, h4, ?_, ?_⟩
  · rw [h2, List.filterMap_map]
    apply List.filterMap_congr
    intro e _; simp only [Function.comp]; split <;> rfl
  · intro x; rw [hm]; exact h3 x
  · rw [hm]; exact h5
  · intro e he
    obtain ⟨e', he', rfl⟩ := List.mem_map.1 he
    by_cases h : e'.key = k
    · simp [h]
    · simp [h, h6 e' he']

theorem run_inv : ∀ (l : List Op) {s : St} {w : List Key}, Inv s w → Legal s l → (∀ o ∈ l, ∀ k, o ≠ .free k) → Inv (run s l) (known s w l) := by
  intro l
  induction l with
  | nil => intro s w hi _ _; exact hi
  | cons o l ih =>
    intro s w hi hl hf
    have hf' := fun o ho => hf o (List.mem_cons_of_mem _ ho)
    cases o with
    | alloc k d => exact ih (step_alloc hi k d hl.1) hl.2 hf'
    | free k => exact absurd rfl (hf _ (by simp) k)
    | set k v => exact ih (step_set hi k v hl.1) hl.2 hf'

theorem invoke_inv {s : St} {w : List Key} (hi : Inv s w) : invoke s = due w := by
  obtain ⟨⟨l, n, h1, h2⟩, h3, h4, h5, h6⟩ := hi
  have e1 : invoke s = (l.filterMap (fun e => e.1.map fun k => (k, e.2))).filterMap
      fun e => if get s (some e.1) = 0 then none else some (e.2, get s (some e.1)) := by
    unfold invoke
    rw [h1, List.filterMap_append, List.filterMap_map, List.filterMap_filterMap]
    have : (List.replicate n (none : Option (Option Nat × Nat))).filterMap (fun e => match e with
        | none => none
        | some (k, d) => if get s k = 0 then none else some (d, get s k)) = [] := by
      apply List.filterMap_eq_nil_iff.2
      intro a ha
      rw [List.mem_replicate] at ha
      rw [ha.2]
    rw [this, List.append_nil]
    apply List.filterMap_congr
    rintro ⟨k, d⟩ _
    cases k <;> simp [get]
  rw [e1, h2, List.filterMap_filterMap]
  unfold due
  apply List.filterMap_congr
  intro e he
  have hin : e.key ∈ s.keys := (h3 _).2 (List.mem_map_of_mem he)
  cases hd : e.dtor with
  | none => simp
  | some d => simp [get, hin, h6 e he]

/-! ## Theorems -/

/-- **C213, the part that holds** (in the allocator's copy of the code).  As long as no key is freed, at the end of the thread each value
that is not `NULL` goes once to the destructor of its key, and nothing else is called; however many keys there are, with and without
destructors, and whether or not keys or entries run out on the way. -/
theorem destructors_partial (n : Nat) (l : List Op) (hl : Legal (start n) l) (hf : ∀ o ∈ l, ∀ k, o ≠ .free k) :
    threadEnds .allocator (run (start n) l) = due (known (start n) [] l) := by
  apply invoke_inv
  apply run_inv l _ hl hf
  exact ⟨⟨[], n, by simp [start], rfl⟩, by simp [start], by simp [start], by simp, by simp⟩

example : Legal (start 2) [.alloc (some 5) (some 1), .alloc (some 6) none, .set 5 9, .set 6 8] ∧
    due (known (start 2) [] [.alloc (some 5) (some 1), .alloc (some 6) none, .set 5 9, .set 6 8]) = [(1, 9)] := by
  refine ⟨?_, by decide⟩
  simp [Legal, start, step, alloc, set, register]

/-- **C213 is false of the code with keys that are freed.**  The destructor of a key stays in the table when the key is freed: a value of
a later key with the same number goes to both destructors. -/
theorem freed_key_destroys_twice (n k d1 d2 v : Nat) (hv : v ≠ 0) :
    Legal (start (n + 2)) [.alloc (some k) (some d1), .free k, .alloc (some k) (some d2), .set k v] ∧
      threadEnds .allocator (run (start (n + 2)) [.alloc (some k) (some d1), .free k, .alloc (some k) (some d2), .set k v]) = [(d1, v), (d2, v)] ∧
      due (known (start (n + 2)) [] [.alloc (some k) (some d1), .free k, .alloc (some k) (some d2), .set k v]) = [(d2, v)] := by
  refine ⟨?_, ?_, ?_⟩
  · simp [Legal, start, step, alloc, free, register, List.replicate_succ]
  · simp [threadEnds, run, start, step, alloc, free, set, register, List.replicate_succ, invoke, get, hv]
  · simp [known, start, step, specStep, alloc, free, register, List.replicate_succ, due, hv]

/-- **C213 is false of the library's own copy**: nothing calls the destructors when a thread ends, whatever is due. -/
theorem library_destroys_nothing (n k d v : Nat) (hv : v ≠ 0) :
    Legal (start (n + 1)) [.alloc (some k) (some d), .set k v] ∧
      threadEnds .events (run (start (n + 1)) [.alloc (some k) (some d), .set k v]) ≠
        due (known (start (n + 1)) [] [.alloc (some k) (some d), .set k v]) := by
  refine ⟨by simp [Legal, start, step, alloc, register, List.replicate_succ], ?_⟩
  simp [threadEnds, known, start, specStep, alloc, register, List.replicate_succ, due, hv]

/-- Rounds of making a key and freeing it: the results of making it. -/
def rounds (k : Nat) (d : Option Nat) : Nat → St → List (Option Nat)
  | 0, _ => []
  | n + 1, s => (alloc s (some k) d).2 :: rounds k d n (match (alloc s (some k) d).2 with
    | none => (alloc s (some k) d).1
    | some k => free (alloc s (some k) d).1 k)

theorem rounds_dtor (k d : Nat) : ∀ (m : Nat) (l : List (Option Nat × Nat)) (n : Nat) (v : Nat → Nat),
    rounds k (some d) m { slots := l.map some ++ List.replicate n none, keys := [], vals := v } =
      List.replicate (min m n) (some k) ++ List.replicate (m - n) none := by
  intro m
  induction m with
  | zero => intros; simp [rounds]
  | succ m ih =>
    intro l n v
    unfold rounds
    simp only [alloc, register_spec]
    cases n with
    | zero =>
      have := ih l 0 (fun x => if x = k then 0 else v x)
      simp only [if_true, List.erase_cons_head]
      rw [this]
      simp [List.replicate_succ]
    | succ n =>
      have := ih (l ++ [(some k, d)]) n (fun x => if x = k then 0 else v x)
      simp only [Nat.add_one_ne_zero, if_false, free, List.erase_cons_head, Nat.add_sub_cancel]
      rw [this, Nat.add_min_add_right, List.replicate_succ, Nat.add_sub_add_right]
      rfl

/-- **C214 is false of the code.**  Keys with a destructor can be made and freed only as often as the table has entries: of `m` rounds the
first `n` succeed and all others fail, although no key is in use. -/
theorem keys_run_out (k d m n : Nat) :
    rounds k (some d) m (start n) = List.replicate (min m n) (some k) ++ List.replicate (m - n) none := by
  have := rounds_dtor k d m [] n (fun _ => 0)
  simpa [start] using this

/-- **C214, the part that holds.**  Keys without a destructor can be made and freed any number of times. -/
theorem plain_keys_partial (k m : Nat) (s : St) : rounds k none m s = List.replicate m (some k) := by
  induction m generalizing s with
  | zero => rfl
  | succ m ih => rw [rounds, ih]; rfl

example : rounds 5 (some 1) 3 (start 2) = [some 5, some 5, none] := by decide

end Verif.Win.TlsKeys
