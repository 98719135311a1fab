import Verif.Win.Route

/-!
# Properties of the descriptor table for Windows
-/

namespace Verif.Win

/-- Entries that are read and written as files. -/
def Stream (k : Kind) : Prop := k = .fileSync ∨ k = .fileAsync ∨ k = .pipeSync ∨ k = .pipeAsync

theorem getD_of {t : Tab} {i : Nat} {e : Option Entry} (h : t[i]? = some e) : t.getD i none = e := by
  rw [List.getD_eq_getElem?_getD, h]; rfl

theorem slot_of {t : Tab} {i : Nat} {e : Option Entry} (h : t[i]? = some e) : slot t i = .ok e := by
  unfold slot
  rw [if_pos (by omega), Int.toNat_natCast, h]
  rfl

theorem valid_of {t : Tab} {i : Nat} {e : Option Entry} (h : t[i]? = some e) : valid t i = e.isSome := by
  unfold valid
  rw [if_pos (by omega), Int.toNat_natCast, getD_of h]

/-- C170 (the part that holds): for a number inside the table, with a loop or without, `os_read` reads the socket of
that number if there is one, else the handle of the file or pipe entry under it, else the descriptor of the C library;
`os_write` does the same as long as a loop exists.  Missing: a number outside of the
table (`route_outside`), writing without a loop (`route_write_noloop`), a pseudo descriptor with the number of
standard output (`new_fd_stdout`). -/
theorem route_partial (t : Tab) (i loops : Nat) (sock : Int → Bool) (e : Option Entry) (h : t[i]? = some e)
    (hs : ∀ en, e = some en → Stream en.kind) :
    osRead t loops sock i = .ok (if sock i = true then .socket i else
      match e with | none => .clib i | some en => .handle en.handle) ∧
    (loops ≠ 0 → osWrite t loops sock i = .ok (if sock i = true then .socket i else
      match e with | none => .clib i | some en => .handle en.handle)) := by
  have h1 := slot_of h
  have h2 := valid_of h
  constructor
  · unfold osRead
    rw [h1, h2]
    cases hsock : sock i
    · cases e with
      | none => by_cases hl : loops = 0 <;> simp [hl]
      | some en =>
        rcases hs en rfl with hk | hk | hk | hk <;> by_cases hl : loops = 0 <;> simp [hl, hk]
    · by_cases hl : loops = 0 <;> simp [hl]
  · intro hl
    unfold osWrite
    rw [h1]
    cases hsock : sock i
    · cases e with
      | none => simp [hl]
      | some en =>
        rcases hs en rfl with hk | hk | hk | hk <;> simp [hl, hk]
    · simp [hl]

/-- C170, negated: while a loop exists, for every number outside of the table (a socket may have any) the table is
read outside of its bounds. -/
theorem route_outside (t : Tab) (loops : Nat) (sock : Int → Bool) (fd : Int) (hl : loops ≠ 0)
    (h : fd < 0 ∨ (t.length : Int) ≤ fd) : osRead t loops sock fd = .ub ∧ osWrite t loops sock fd = .ub := by
  have hs : slot t fd = .ub := by
    unfold slot
    rcases h with h | h
    · rw [if_neg (by omega)]
    · rw [if_pos (by omega), List.getElem?_eq_none (by omega)]
      rfl
  unfold osRead osWrite
  rw [hs]
  simp [hl]

/-- C170, negated: without a loop, a write to a pseudo descriptor (which `os_read` would read) goes to whatever the C
library has under the same number. -/
theorem route_write_noloop (t : Tab) (i : Nat) (sock : Int → Bool) (en : Entry) (h : t[i]? = some (some en))
    (hk : Stream en.kind) (hsock : sock i = false) :
    osWrite t 0 sock i = .ok (.clib i) ∧ osRead t 0 sock i = .ok (.handle en.handle) := by
  refine ⟨by simp [osWrite, hsock], ?_⟩
  have := (route_partial t i 0 sock (some en) h (by intro e he; obtain rfl := Option.some.inj he; exact hk)).1
  rw [this, hsock]
  simp

/-- C170, negated: in a fresh table of `n` entries, a handle whose value is not below `n` gets the number 1; from then
on what is written to standard output while a loop exists goes to that handle. -/
theorem new_fd_stdout (n h : Nat) (hn : 2 ≤ n) (hh : n ≤ h) (kind : Kind) (hk : Stream kind) (loops : Nat)
    (hl : loops ≠ 0) (sock : Int → Bool) (hsock : sock 1 = false) :
    ∃ t, newFd (List.replicate n none) kind h (-1) = (some 1, t) ∧ osWrite t loops sock 1 = .ok (.handle h) := by
  have hp : pickSlot (List.replicate n none) h (-1) = some 1 := by
    unfold pickSlot
    rw [if_neg (by omega), if_pos (by omega), if_neg (by simp; omega)]
    obtain ⟨m, rfl⟩ : ∃ m, n = m + 2 := ⟨n - 2, by omega⟩
    rw [List.length_replicate]
    have : (List.range (m + 2)).drop 1 = 1 :: (List.range (m + 2)).drop 2 := by
      have h2 : 1 < (List.range (m + 2)).length := by simp
      rw [List.drop_eq_getElem_cons h2]
      simp
    rw [this, List.find?_cons_of_pos]
    simp [List.getD_eq_getElem?_getD]
  refine ⟨_, by rw [newFd, hp], ?_⟩
  have hs : (((List.replicate n none).set 1 (some ⟨kind, (h : Int).toNat, false, false⟩) : Tab))[1]? =
      some (some ⟨kind, h, false, false⟩) := by
    rw [List.getElem?_set_self (by simp; omega)]
    simp
  have := (route_partial _ 1 loops sock _ hs (by intro e he; obtain rfl := Option.some.inj he; exact hk)).2 hl
  rw [show ((1 : Nat) : Int) = 1 from rfl] at this
  rw [this, hsock]
  simp

/-- `events_new_fd` never takes an entry that is in use, and changes no other one. -/
theorem new_fd_free (t : Tab) (kind : Kind) (fd desired : Int) (i : Nat) (t' : Tab)
    (h : newFd t kind fd desired = (some i, t')) :
    t[i]? = some none ∧ t'[i]? = some (some ⟨kind, fd.toNat, false, false⟩) ∧ ∀ j, j ≠ i → t'[j]? = t[j]? := by
  have hsome : ∀ j, j < t.length → (t.getD j none).isNone = true → t[j]? = some none := by
    intro j hj hn
    rw [List.getD_eq_getElem?_getD, List.getElem?_eq_getElem hj] at hn
    rw [List.getElem?_eq_getElem hj]
    simpa using hn
  have key : ∀ j, pickSlot t fd desired = some j → t[j]? = some none := by
    intro j hj
    unfold pickSlot at hj
    split at hj
    · rename_i hc
      obtain rfl := Option.some.inj hj
      exact hsome _ (by omega) hc.2.2
    · split at hj
      · split at hj
        · rename_i hc
          obtain rfl := Option.some.inj hj
          exact hsome _ (by omega) hc.2
        · have h1 := List.find?_some hj
          have h2 := List.mem_of_mem_drop (List.mem_of_find?_eq_some hj)
          exact hsome _ (by simpa using h2) (by simpa using h1)
      · simp at hj
  unfold newFd at h
  cases hp : pickSlot t fd desired with
  | none => rw [hp] at h; simp at h
  | some j =>
    rw [hp] at h
    simp only [Prod.mk.injEq, Option.some.injEq] at h
    obtain ⟨rfl, rfl⟩ := h
    have hj := key j hp
    have hlt : j < t.length := (List.getElem?_eq_some_iff.1 hj).1
    exact ⟨hj, List.getElem?_set_self hlt, fun k hk => List.getElem?_set_ne (Ne.symm hk)⟩

/-- The memory an entry may hold: a path for files, pipes of the loop and watched directories, a buffer for the
others. -/
def Tidy (e : Entry) : Prop :=
  match e.kind with
  | .fileSync | .fileAsync | .pipeAsync | .monSync => e.buffer = false
  | .pipeSync | .monAsync | .process => e.path = false
  | _ => e.path = false ∧ e.buffer = false

/-- C171 (the part that holds): `os_close` of a pseudo descriptor that is not a socket, is `Tidy` and has not the
number of a socket closes its handle, exactly that, reports success and frees the entry and no other.  Missing: socket
entries (`close_socket_leaks`), a pipe that cannot be flushed (`close_pipe_stays`), and memory of the other sort
(`close_aborts`). -/
theorem close_partial (t : Tab) (i loops : Nat) (sock : Int → Bool) (e : Entry) (h : t[i]? = some (some e))
    (hk : e.kind ≠ .sockSync ∧ e.kind ≠ .sockAsync) (ht : Tidy e) (hsock : sock i = false) :
    ∃ t', osClose t loops sock true i = some (0, .handle e.handle, t') ∧ t'[i]? = some none ∧
      ∀ j, j ≠ i → t'[j]? = t[j]? := by
  have hlt : i < t.length := (List.getElem?_eq_some_iff.1 h).1
  have hv := valid_of h
  have hg := getD_of h
  have hfree : freeFd t i = some (t.set i none) := by
    unfold freeFd
    rw [if_pos (by omega), Int.toNat_natCast, hg]
    unfold Tidy at ht
    obtain ⟨kind, hd, path, buffer⟩ := e
    cases kind <;> simp_all
  refine ⟨t.set i none, ?_, List.getElem?_set_self hlt, fun j hj => List.getElem?_set_ne (Ne.symm hj)⟩
  unfold osClose
  rw [if_neg (by omega), hv, hsock]
  dsimp only
  rw [if_neg (by simp), if_neg (by simp), Int.toNat_natCast, hg]
  dsimp only
  rw [hfree]
  obtain ⟨kind, hd, path, buffer⟩ := e
  cases kind <;> simp_all

/-- C171, negated: closing a socket entry frees it and reports an error, but the socket is never closed. -/
theorem close_socket_leaks (t : Tab) (i loops : Nat) (sock : Int → Bool) (h : Nat) (flush : Bool) (kind : Kind)
    (hk : kind = .sockSync ∨ kind = .sockAsync) (ht : t[i]? = some (some ⟨kind, h, false, false⟩))
    (hl : loops ≠ 0) : osClose t loops sock flush i = some (-1, .nothing, t.set i none) := by
  have hlt : i < t.length := (List.getElem?_eq_some_iff.1 ht).1
  have hv := valid_of ht
  have hg := getD_of ht
  have hfree : freeFd t i = some (t.set i none) := by
    unfold freeFd
    rw [if_pos (by omega), Int.toNat_natCast, hg]
    rcases hk with rfl | rfl <;> rfl
  unfold osClose
  rw [if_neg (by omega), hv]
  dsimp only
  rw [if_neg (by simp [hl]), if_neg (by simp), Int.toNat_natCast, hg]
  dsimp only
  rw [hfree]
  rcases hk with rfl | rfl <;> rfl

/-- C171, negated: if the other end of a pipe is gone (it cannot be flushed or disconnected), the pipe stays open and
its entry in use. -/
theorem close_pipe_stays (t : Tab) (i loops : Nat) (sock : Int → Bool) (e : Entry) (h : t[i]? = some (some e))
    (hk : e.kind = .pipeAsync) (hl : loops ≠ 0) : osClose t loops sock false i = some (-1, .nothing, t) := by
  have hv := valid_of h
  have hg := getD_of h
  unfold osClose
  rw [if_neg (by omega), hv]
  dsimp only
  rw [if_neg (by simp [hl]), if_neg (by simp), Int.toNat_natCast, hg]
  simp [hk]

/-- C171, negated: the monitor of `inotify_init` (with the path that `os_read` gives to its kind of entry) or a
synchronous pipe with a path cannot be closed: the `assert` behind the freeing fails. -/
theorem close_aborts (t : Tab) (i loops : Nat) (sock : Int → Bool) (e : Entry) (h : t[i]? = some (some e))
    (hk : e.kind = .pipeSync ∨ e.kind = .monAsync ∨ e.kind = .process) (hp : e.path = true) (hl : loops ≠ 0)
    (flush : Bool) : osClose t loops sock flush i = none := by
  have hlt : i < t.length := (List.getElem?_eq_some_iff.1 h).1
  have hv := valid_of h
  have hg := getD_of h
  have hfree : freeFd t i = none := by
    unfold freeFd
    rw [if_pos (by omega), Int.toNat_natCast, hg]
    rcases hk with hk | hk | hk <;> simp [hk, hp]
  unfold osClose
  rw [if_neg (by omega), hv]
  dsimp only
  rw [if_neg (by simp [hl]), if_neg (by simp), Int.toNat_natCast, hg]
  dsimp only
  rw [hfree]
  rcases hk with hk | hk | hk <;> simp [hk]

/-- A table with a file under 2: reads, writes and closes go to its handle. -/
example :
    let t : Tab := [none, none, some ⟨.fileAsync, 77, true, false⟩]
    osRead t 1 (fun _ => false) 2 = .ok (.handle 77) ∧ osWrite t 1 (fun _ => false) 2 = .ok (.handle 77) ∧
      osWrite t 1 (fun _ => false) 1 = .ok (.clib 1) ∧
      osClose t 1 (fun _ => false) true 2 = some (0, .handle 77, [none, none, none]) := by decide

end Verif.Win
