import Mathlib.Logic.Function.Basic
import Mathlib.Data.List.Basic
import Mathlib.Tactic.ByContra

/-!
# Starting and ending the watching of directories on BSD and macOS (`src/os_unix.c` 972-1028, 1132-1212), C246

With a running loop `inotify_init` makes no kernel queue of its own: the monitor is an entry of the table with the descriptor of the loop's
queue (975-979).  `inotify_close` gives the entry to `os_close`, which closes its descriptor.

Simplified: the entry of a descriptor has the descriptor's number, as `events_new_fd` wishes (402-404), as long as the table is large enough;
calls of `kqueue_add_watch` succeed; the walk over subdirectories has ended (`subs` are the directories it opened).  What is
reported about directories is in `Kq/Update`; that nothing is, in `directory_never_watched` of `Kq/Props`.
-/

namespace Verif.Kq.Monitor

/-- What a descriptor is: the loop's queue, a directory opened to be watched, or something of the program. -/
inductive Obj
  | queue
  | dir
  | file
  deriving DecidableEq, Repr

/-- `fds`: the open descriptors; `mon`: `loop->inotify_fd` is not -1; `valid`: the entry of the monitor is in use; `wds`: its list
`inotify_wd`; `kq`: `loop->kq`. -/
structure St where
  fds : Nat → Option Obj
  mon : Bool
  valid : Bool
  wds : List Nat
  kq : Nat

/-- After `events_create`, src/kqueue.c:92-116. -/
def init (kq : Nat) : St := ⟨Function.update (fun _ => none) kq (some .queue), false, false, [], kq⟩

def close (fds : Nat → Option Obj) (n : Nat) : Nat → Option Obj := Function.update fds n none

/-- Descriptors opened one after the other; the system gives numbers that are not in use. -/
def openDirs (fds : Nat → Option Obj) : List Nat → Option (Nat → Option Obj)
  | [] => some fds
  | n :: l => if fds n = none then openDirs (Function.update fds n (some .dir)) l else none

/-- The `foreach` with `$remove` in `inotify_close`, os_unix.c:1017-1021: the descriptors closed, and the list that is left. -/
def closeLoop : Nat → Nat → List Nat → List Nat
  | 0, _, _ => []
  | k + 1, i, l =>
    match l[i]? with
    | none => []
    | some w => w :: closeLoop k (i + 1) (l.eraseIdx i)

/-- `inotify_close` of the monitor, os_unix.c:1015-1028: `os_close` (347-360) closes the descriptor of the entry, which is the loop's queue. -/
def inotifyClose (s : St) : St :=
  if s.valid then
    { s with
      fds := close ((closeLoop (s.wds.length + 1) 0 s.wds).foldl close s.fds) s.kq
      valid := false
      wds := [] }
  else s

inductive Op
  | watch (subs : List Nat)
  | remove (w : Nat)
  | stop
  | openFile (n : Nat)
  | closeFile (n : Nat)
  | poll
  | destroy
  deriving DecidableEq, Repr

/-- One call; `none` is a failed assertion, or what the system does not do (giving out numbers in use).
* `watch`: `events_watch` (src/events.c:521-537) with `inotify_init` (os_unix.c:972-980) for the first directory, and `inotify_add_watch`
  (1132-1184); `subs` are the directory's own descriptor and those of the directories below, in the order of opening;
* `remove`: `events_remove` (events.c:459-461), that is `inotify_del_monitor` (os_unix.c:999-1009) and `inotify_rm_watch` (1186-1212);
* `stop`: `events_del_watch` (events.c:463-468);
* `poll`: `kevent` fails with `EBADF` if its descriptor is not a queue, and the assertion of src/kqueue.c:180 fails;
* `destroy`: `events_destroy`, kqueue.c:118-128. -/
def step (s : St) : Op → Option St
  | .watch subs =>
    let s := if s.mon then s else { s with mon := true, valid := true, wds := [] }
    (openDirs s.fds subs).map fun fds => { s with fds := fds, wds := s.wds ++ subs }
  | .remove w =>
    if w ∈ s.wds then
      let s := { s with fds := close s.fds w, wds := s.wds.erase w }
      if s.wds = [] then some (inotifyClose s) else some s
    else some s
  | .stop => some { inotifyClose s with mon := false }
  | .openFile n => if s.fds n = none then some { s with fds := Function.update s.fds n (some .file) } else none
  | .closeFile n => if s.fds n = some .file then some { s with fds := close s.fds n } else some s
  | .poll => if s.fds s.kq = some .queue then some s else none
  | .destroy => some { s with fds := close s.fds s.kq }

def run (s : St) (l : List Op) : Option St := l.foldlM step s

/-! ## Specification -/

/-- Of a list the first, third, fifth ... -/
def odds : List Nat → List Nat
  | [] => []
  | [a] => [a]
  | a :: _ :: l => a :: odds l

/-- Nothing ends the watching as a whole. -/
def Goes : St → List Op → Prop
  | _, [] => True
  | s, o :: l => o ≠ .stop ∧ o ≠ .destroy ∧ (∀ w, o = .remove w → s.wds.erase w ≠ [] ∨ w ∉ s.wds) ∧ ∀ s', step s o = some s' → Goes s' l

/-- The system gives out only numbers that are not in use. -/
def Sound : St → List Op → Prop
  | _, [] => True
  | s, o :: l => (∀ n, o = .openFile n → s.fds n = none) ∧ (∀ subs, o = .watch subs → subs.Nodup ∧ ∀ n ∈ subs, s.fds n = none) ∧
      ∀ s', step s o = some s' → Sound s' l

/-! ## Lemmas -/

theorem closeLoop_odds : ∀ (n : Nat) (r a : List Nat) (k : Nat), r.length ≤ n → r.length < k → closeLoop k a.length (a ++ r) = odds r := by
  intro n
  induction n with
  | zero =>
    intro r a k hn hk
    have : r = [] := List.length_eq_zero_iff.1 (by omega)
    subst this
    cases k with
    | zero => omega
    | succ k => simp [closeLoop, odds]
  | succ n ih =>
    intro r a k hn hk
    cases k with
    | zero => omega
    | succ k =>
      cases r with
      | nil => simp [closeLoop, odds]
      | cons x r =>
        have h1 : (a ++ x :: r)[a.length]? = some x := by simp
        have h2 : (a ++ x :: r).eraseIdx a.length = a ++ r := by
          rw [List.eraseIdx_append_of_length_le (Nat.le_refl _)]; simp
        simp only [closeLoop, h1, h2]
        cases r with
        | nil =>
          simp only [odds]
          cases k with
          | zero => rfl
          | succ k => simp [closeLoop]
        | cons y r =>
          have h3 : a ++ y :: r = (a ++ [y]) ++ r := by simp
          simp only [odds]
          rw [h3, show a.length + 1 = (a ++ [y]).length by simp,
            ih r (a ++ [y]) k (by simp at hn; omega) (by simp at hk; omega)]

theorem closeLoop_all (l : List Nat) : closeLoop (l.length + 1) 0 l = odds l :=
  closeLoop_odds l.length l [] (l.length + 1) (Nat.le_refl _) (Nat.lt_succ_self _)

theorem foldl_close (l : List Nat) (fds : Nat → Option Obj) (n : Nat) :
    (l.foldl close fds) n = if n ∈ l then none else fds n := by
  induction l generalizing fds with
  | nil => simp
  | cons a l ih =>
    simp only [List.foldl_cons, ih, close, Function.update_apply, List.mem_cons]
    by_cases h1 : n ∈ l
    · simp [h1]
    · by_cases h2 : n = a <;> simp [h1, h2]

theorem openDirs_spec : ∀ (l : List Nat) (fds : Nat → Option Obj), l.Nodup → (∀ n ∈ l, fds n = none) →
    ∃ f, openDirs fds l = some f ∧ ∀ n, f n = if n ∈ l then some .dir else fds n := by
  intro l
  induction l with
  | nil => intro fds _ _; exact ⟨fds, rfl, by simp⟩
  | cons a l ih =>
    intro fds hd hf
    simp only [List.nodup_cons] at hd
    obtain ⟨f, h1, h2⟩ := ih (Function.update fds a (some .dir)) hd.2 (fun n hn => by
      rw [Function.update_apply, if_neg (fun he => hd.1 (by rw [← he]; exact hn))]
      exact hf n (List.mem_cons_of_mem _ hn))
    refine ⟨f, by simp only [openDirs]; rw [if_pos (hf a (by simp))]; exact h1, fun n => ?_⟩
    rw [h2, Function.update_apply]
    by_cases h3 : n = a
    · subst h3; simp
    · simp [h3]

structure Inv (s : St) : Prop where
  queue : s.fds s.kq = some .queue
  dirs : ∀ w ∈ s.wds, s.fds w = some .dir
  nodup : s.wds.Nodup

theorem step_inv {s : St} (h : Inv s) (o : Op) (h1 : o ≠ .stop) (h2 : o ≠ .destroy)
    (h3 : ∀ w, o = .remove w → s.wds.erase w ≠ [] ∨ w ∉ s.wds) (h4 : ∀ n, o = .openFile n → s.fds n = none)
    (h5 : ∀ subs, o = .watch subs → subs.Nodup ∧ ∀ n ∈ subs, s.fds n = none) :
    ∃ s', step s o = some s' ∧ Inv s' ∧ s'.kq = s.kq := by
  cases o with
  | watch subs =>
    obtain ⟨hn, hf⟩ := h5 subs rfl
    obtain ⟨f, e1, e2⟩ := openDirs_spec subs s.fds hn hf
    have hq : f s.kq = some .queue := by
      rw [e2, if_neg]
      · exact h.queue
      · intro hm; have := hf _ hm; rw [h.queue] at this; simp at this
    have hdis : ∀ w ∈ s.wds, w ∉ subs := by
      intro w hw hm
      have := hf w hm
      rw [h.dirs w hw] at this; simp at this
    simp only [step]
    cases hm : s.mon with
    | true =>
      refine ⟨{ s with fds := f, wds := s.wds ++ subs }, by simp [e1, hm], ⟨hq, ?_, ?_⟩, rfl⟩
      · intro w hw
        show f w = _
        rw [e2]
        rcases List.mem_append.1 hw with hw | hw
        · rw [if_neg (hdis w hw)]; exact h.dirs w hw
        · rw [if_pos hw]
      · rw [List.nodup_append]
        exact ⟨h.nodup, hn, fun a ha b hb he => hdis a ha (by rw [he]; exact hb)⟩
    | false =>
      refine ⟨{ s with fds := f, mon := true, valid := true, wds := subs }, by simp [e1], ⟨hq, ?_, hn⟩, rfl⟩
      intro w hw
      show f w = _
      rw [e2, if_pos hw]
  | remove w =>
    simp only [step]
    split
    · rename_i hw
      rcases h3 w rfl with he | he
      · rw [if_neg he]
        have hwq : w ≠ s.kq := by
          intro e; have := h.dirs w hw; rw [e, h.queue] at this; simp at this
        refine ⟨_, rfl, ⟨?_, ?_, h.nodup.erase w⟩, rfl⟩
        · show close s.fds w s.kq = _
          rw [close, Function.update_apply, if_neg hwq.symm]; exact h.queue
        · intro v hv
          rw [h.nodup.mem_erase_iff] at hv
          show close s.fds w v = _
          rw [close, Function.update_apply, if_neg hv.1]
          exact h.dirs v hv.2
      · exact absurd hw he
    · exact ⟨s, rfl, h, rfl⟩
  | stop => exact absurd rfl h1
  | openFile n =>
    have hn := h4 n rfl
    simp only [step]
    rw [if_pos hn]
    refine ⟨_, rfl, ⟨?_, ?_, h.nodup⟩, rfl⟩
    · show Function.update s.fds n _ s.kq = _
      rw [Function.update_apply, if_neg]
      · exact h.queue
      · intro e; rw [← e, h.queue] at hn; simp at hn
    · intro v hv
      show Function.update s.fds n _ v = _
      rw [Function.update_apply, if_neg]
      · exact h.dirs v hv
      · intro e; rw [← e, h.dirs v hv] at hn; simp at hn
  | closeFile n =>
    simp only [step]
    split
    · rename_i hn
      refine ⟨_, rfl, ⟨?_, ?_, h.nodup⟩, rfl⟩
      · show close s.fds n s.kq = _
        rw [close, Function.update_apply, if_neg]
        · exact h.queue
        · intro e; rw [← e, h.queue] at hn; simp at hn
      · intro v hv
        show close s.fds n v = _
        rw [close, Function.update_apply, if_neg]
        · exact h.dirs v hv
        · intro e; rw [← e, h.dirs v hv] at hn; simp at hn
    · exact ⟨s, rfl, h, rfl⟩
  | poll =>
    simp only [step]
    rw [if_pos h.queue]
    exact ⟨s, rfl, h, rfl⟩
  | destroy => exact absurd rfl h2

theorem run_cons (s : St) (o : Op) (l : List Op) : run s (o :: l) = (step s o).bind fun s' => run s' l := rfl

theorem run_inv (l : List Op) (s : St) (h : Inv s) (hg : Goes s l) (hs : Sound s l) :
    ∃ s', run s l = some s' ∧ Inv s' ∧ s'.kq = s.kq := by
  induction l generalizing s with
  | nil => exact ⟨s, rfl, h, rfl⟩
  | cons o l ih =>
    obtain ⟨g1, g2, g3, g4⟩ := hg
    obtain ⟨k1, k2, k3⟩ := hs
    obtain ⟨s1, e1, i1, q1⟩ := step_inv h o g1 g2 g3 k1 k2
    obtain ⟨s2, e2, i2, q2⟩ := ih s1 i1 (g4 s1 e1) (k3 s1 e1)
    exact ⟨s2, by rw [run_cons, e1]; exact e2, i2, by rw [q2, q1]⟩

theorem inv_init (kq : Nat) : Inv (init kq) := ⟨by simp [init], by simp [init], by simp [init]⟩

/-! ## C246 -/

/-- As long as some directory is watched, polls work, whatever was added and removed and whatever files the program opened and closed.
Missing: the end of watching. -/
theorem poll_works_partial (kq : Nat) (l : List Op) (hg : Goes (init kq) l) (hs : Sound (init kq) l) :
    ∃ s, run (init kq) l = some s ∧ s.fds kq = some .queue ∧ (step s .poll).isSome ∧ ∀ w ∈ s.wds, s.fds w = some .dir := by
  obtain ⟨s, e, h, hk⟩ := run_inv l (init kq) (inv_init kq) hg hs
  have hk : s.kq = kq := hk
  refine ⟨s, e, by rw [← hk]; exact h.queue, ?_, h.dirs⟩
  simp only [step]
  rw [if_pos h.queue]
  rfl

example : Goes (init 3) [.watch [4, 5], .openFile 6, .remove 5, .poll, .closeFile 6] ∧
    Sound (init 3) [.watch [4, 5], .openFile 6, .remove 5, .poll, .closeFile 6] := by
  have e1 : step (init 3) (.watch [4, 5]) = some ⟨Function.update (Function.update (init 3).fds 4 (some .dir)) 5 (some .dir), true, true, [4, 5], 3⟩ := by
    simp [step, init, openDirs]
  refine ⟨⟨by simp, by simp, by simp, fun s' h => ?_⟩, ⟨by simp, ?_, fun s' h => ?_⟩⟩
  · rw [e1] at h; injection h with h; subst h
    refine ⟨by simp, by simp, by simp, fun s' h => ?_⟩
    simp [step, init] at h; subst h
    refine ⟨by simp, by simp, ?_, fun s' h => ?_⟩
    · intro w hw; injection hw with hw; subst hw; left; simp
    simp [step] at h; subst h
    refine ⟨by simp, by simp, by simp, fun s' h => ?_⟩
    simp [step, close] at h; subst h
    exact ⟨by simp, by simp, by simp, fun _ _ => trivial⟩
  · intro subs hs; injection hs with hs; subst hs; simp [init]
  · rw [e1] at h; injection h with h; subst h
    refine ⟨?_, by simp, fun s' h => ?_⟩
    · intro n hn; injection hn with hn; subst hn; simp [init]
    simp [step, init] at h; subst h
    refine ⟨by simp, by simp, fun s' h => ?_⟩
    simp [step] at h; subst h
    refine ⟨by simp, by simp, fun s' h => ?_⟩
    simp [step, close] at h; subst h
    exact ⟨by simp, by simp, fun _ _ => trivial⟩

/-- After the end of watching the loop's queue is closed: the next poll fails an assertion, whatever was watched. -/
theorem stop_ends_the_loop (s : St) (hv : s.valid = true) :
    ∃ s', step s .stop = some s' ∧ s'.fds s'.kq = none ∧ step s' .poll = none := by
  refine ⟨_, rfl, ?_, ?_⟩
  · simp [inotifyClose, hv, close]
  · simp [step, inotifyClose, hv, close]

/-- The same after the removal of the last directory. -/
theorem last_removed_ends_the_loop (s : St) (w : Nat) (hv : s.valid = true) (hw : s.wds = [w]) :
    ∃ s', step s (.remove w) = some s' ∧ step s' .poll = none := by
  refine ⟨_, by simp only [step]; rw [if_pos (by simp [hw]), if_pos (by simp [hw])], ?_⟩
  simp [step, inotifyClose, hv, close]

/-- And with every first watch of a loop that had none. -/
example (kq n : Nat) (h : n ≠ kq) : ∃ s, run (init kq) [.watch [n]] = some s ∧ s.valid = true ∧ s.wds = [n] ∧ s.fds n = some .dir :=
  ⟨⟨Function.update (init kq).fds n (some .dir), true, true, [n], kq⟩,
    by simp [run, step, init, openDirs, h], rfl, rfl, by simp⟩

/-- A file that then gets the number is taken for the queue: destroying the loop closes it. -/
theorem destroy_closes_file (s : St) (hv : s.valid = true) :
    ∃ s1 s2, run s [.stop, .openFile s.kq] = some s1 ∧ s1.fds s.kq = some .file ∧ step s1 .destroy = some s2 ∧ s2.fds s.kq = none := by
  refine ⟨{ inotifyClose s with
      mon := false
      fds := Function.update (inotifyClose s).fds s.kq (some .file) }, _, ?_, by simp, rfl, ?_⟩
  · have h1 : step s .stop = some { inotifyClose s with mon := false } := rfl
    rw [run_cons, h1, Option.bind_some, run_cons]
    simp only [step]
    rw [if_pos (by simp [inotifyClose, hv, close])]
    rfl
  · have : (inotifyClose s).kq = s.kq := by simp [inotifyClose, hv]
    simp [close, this]

/-- The end of watching closes only every second directory; the others stay open for good, without anybody knowing their numbers. -/
theorem stop_closes_every_second (s : St) (h : Inv s) (hv : s.valid = true) :
    ∃ s', step s .stop = some s' ∧ s'.wds = [] ∧ ∀ w ∈ s.wds, s'.fds w = if w ∈ odds s.wds then none else some .dir := by
  refine ⟨_, rfl, by simp [inotifyClose, hv], fun w hw => ?_⟩
  have hwq : w ≠ s.kq := by
    intro e; have := h.dirs w hw; rw [e, h.queue] at this; simp at this
  simp only [inotifyClose, hv, if_true, close, Function.update_apply, if_neg hwq, closeLoop_all]
  rw [foldl_close, h.dirs w hw]

example : odds [4, 5, 6, 7] = [4, 6] := rfl

end Verif.Kq.Monitor
