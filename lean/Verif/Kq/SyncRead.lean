import Mathlib.Data.List.Basic
import Mathlib.Data.List.Nodup
import Mathlib.Data.List.Perm.Subperm

/-!
# Reading directory changes without a loop on BSD and macOS (`src/os_unix.c` 311-333, 918-925, 1132-1167, 1186-1194), C247

A program like examples/inotify.c adds directories to a monitor, reads from it into a buffer and goes through the records with
`inotify_length` and `inotify_next`.  The read is a `kevent` for as many events as directories were added; the length of the buffer is
not looked at.

Simplified: descriptors and table entries are the same numbers; the calls of `kevent` that add directories succeed.  The kernel keeps one event
for each directory and forgets it when it was fetched (without `EV_CLEAR`, which is not given at 1156 and 1062, it would report it again).
-/

namespace Verif.Kq.SyncRead

/-- `changes`: the field of the monitor's entry; `dirs`: what the kernel watches; `pend`: its events, oldest first. -/
structure St where
  changes : Int
  dirs : List Nat
  pend : List Nat
  deriving DecidableEq, Repr

def init : St := ⟨0, [], []⟩

/-- What a read does. -/
inductive Out
  /-- Nothing is pending: it waits. -/
  | waits
  /-- The kernel wrote more than the buffer has. -/
  | overflow
  /-- The value returned and the records in the buffer. -/
  | got (ret : Nat) (recs : List Nat)
  deriving DecidableEq, Repr

/-- `os_read` on a monitor, os_unix.c:311-333: `kevent(fd, NULL, 0, buf, changes, NULL)`.  `esz` is `sizeof(struct kevent)`, 32 bytes or more;
with room for no event it returns at once. -/
def read (esz len : Nat) (s : St) : Out × St :=
  if s.changes ≤ 0 then (.got 0 [], s)
  else if s.pend = [] then (.waits, s)
  else
    let recs := s.pend.take s.changes.toNat
    let s' := { s with pend := s.pend.drop s.changes.toNat }
    if len < recs.length * esz then (.overflow, s') else (.got recs.length recs, s')

/-- `inotify_next`, os_unix.c:923-925: there is none. -/
def next (_ : List Nat) : Option (List Nat) := none

/-- The loop of examples/inotify.c:38-63 over the buffer: the records it looks at. -/
def seen : Nat → List Nat → List Nat
  | 0, _ => []
  | _ + 1, [] => []
  | k + 1, r :: rs =>
    r :: match next (r :: rs) with
      | none => []
      | some l => seen k l

inductive Op
  | add (dirs : List Nat)
  | rm (d : Nat)
  | change (d : Nat)
  | read (len : Nat)
  deriving DecidableEq, Repr

/-- One step, and for a read its outcome.
* `add`: `inotify_add_watch`, os_unix.c:1153-1167, with the directories below (1058-1069): the directory's own number first;
* `rm`: `inotify_rm_watch`, 1190-1194: one directory, not those below it;
* `change`: something happens in a directory. -/
def step (esz : Nat) (s : St) : Op → Option Out × St
  | .add ds => (none, { s with changes := s.changes + ds.length, dirs := s.dirs ++ ds })
  | .rm d => (none, { changes := s.changes - 1, dirs := s.dirs.erase d, pend := s.pend.erase d })
  | .change d => (none, if d ∈ s.dirs ∧ d ∉ s.pend then { s with pend := s.pend ++ [d] } else s)
  | .read len => (some (read esz len s).1, (read esz len s).2)

def run (esz : Nat) (s : St) (l : List Op) : St := l.foldl (fun s o => (step esz s o).2) s

/-! ## Specification -/

/-- Directories are added once and removed while watched. -/
def Fair (esz : Nat) : St → List Op → Prop
  | _, [] => True
  | s, o :: l => (∀ ds, o = .add ds → ds.Nodup ∧ ∀ d ∈ ds, d ∉ s.dirs) ∧ (∀ d, o = .rm d → d ∈ s.dirs) ∧ Fair esz (step esz s o).2 l

/-! ## Lemmas -/

structure Inv (s : St) : Prop where
  changes : s.changes = s.dirs.length
  dirs : s.dirs.Nodup
  pend : s.pend.Nodup
  sub : ∀ d ∈ s.pend, d ∈ s.dirs

theorem pend_le {s : St} (h : Inv s) : s.pend.length ≤ s.dirs.length :=
  (h.pend.subperm h.sub).length_le

theorem read_inv {esz len : Nat} {s : St} (h : Inv s) : Inv (read esz len s).2 := by
  have key : Inv { s with pend := s.pend.drop s.changes.toNat } :=
    ⟨h.changes, h.dirs, h.pend.sublist (List.drop_sublist _ _), fun d hd => h.sub d (List.mem_of_mem_drop hd)⟩
  unfold read
  split
  · exact h
  · split
    · exact h
    · simp only
      split <;> exact key

theorem step_inv {esz : Nat} {s : St} (h : Inv s) (o : Op) (h1 : ∀ ds, o = .add ds → ds.Nodup ∧ ∀ d ∈ ds, d ∉ s.dirs)
    (h2 : ∀ d, o = .rm d → d ∈ s.dirs) : Inv (step esz s o).2 := by
  cases o with
  | add ds =>
    obtain ⟨hn, hd⟩ := h1 ds rfl
    refine ⟨by simp [step, h.changes], ?_, h.pend, fun d hp => List.mem_append_left _ (h.sub d hp)⟩
    show (s.dirs ++ ds).Nodup
    rw [List.nodup_append]
    exact ⟨h.dirs, hn, fun a ha b hb he => hd b hb (by rw [← he]; exact ha)⟩
  | rm d =>
    have hd := h2 d rfl
    refine ⟨?_, h.dirs.erase d, h.pend.erase d, ?_⟩
    · show s.changes - 1 = ((s.dirs.erase d).length : Int)
      rw [List.length_erase_of_mem hd, h.changes]
      have := List.length_pos_of_mem hd
      omega
    · intro e he
      change e ∈ s.pend.erase d at he
      rw [h.pend.mem_erase_iff] at he
      exact (h.dirs.mem_erase_iff).2 ⟨he.1, h.sub e he.2⟩
  | change d =>
    simp only [step]
    split
    · rename_i hd
      refine ⟨h.changes, h.dirs, ?_, ?_⟩
      · show (s.pend ++ [d]).Nodup
        rw [List.nodup_append]
        exact ⟨h.pend, by simp, fun a ha b hb he => by
          simp only [List.mem_singleton] at hb; subst hb; subst he; exact hd.2 ha⟩
      · intro e he
        rcases List.mem_append.1 he with he | he
        · exact h.sub e he
        · simp only [List.mem_singleton] at he; subst he; exact hd.1
    · exact h
  | read len => exact read_inv h

theorem run_inv {esz : Nat} (l : List Op) (s : St) (h : Inv s) (hf : Fair esz s l) : Inv (run esz s l) := by
  induction l generalizing s with
  | nil => exact h
  | cons o l ih => exact ih _ (step_inv h o hf.1 hf.2.1) hf.2.2

theorem inv_init : Inv init := ⟨rfl, by simp [init], by simp [init], by simp [init]⟩

theorem read_pend {esz len : Nat} {s : St} (h : Inv s) (hp : s.pend ≠ []) :
    read esz len s = if len < s.pend.length * esz then (.overflow, { s with pend := [] })
      else (.got s.pend.length s.pend, { s with pend := [] }) := by
  have hl := pend_le h
  have h0 : 0 < s.pend.length := List.length_pos_iff.2 hp
  have hc := h.changes
  have ht : s.changes.toNat = s.dirs.length := by rw [hc]; rfl
  unfold read
  rw [if_neg (by omega), if_neg hp]
  simp only [ht, List.take_of_length_le hl, List.drop_of_length_le hl]

/-! ## C247 -/

/-- A buffer with room for as many records as directories are watched is never overrun, and what is then read is all that was pending. -/
theorem large_buffer_partial (esz len : Nat) (l : List Op) (hf : Fair esz init l)
    (hl : (run esz init l).dirs.length * esz ≤ len) (hp : (run esz init l).pend ≠ []) :
    (read esz len (run esz init l)).1 = .got (run esz init l).pend.length (run esz init l).pend := by
  have h := run_inv l init inv_init hf
  rw [read_pend h hp, if_neg]
  have := Nat.mul_le_mul_right esz (pend_le h)
  omega

/-- A single change is reported and is all there is. -/
theorem single_change_partial (esz len d : Nat) (l : List Op) (hf : Fair esz init l) (hp : (run esz init l).pend = [d]) (hl : esz ≤ len) :
    (read esz len (run esz init l)).1 = .got 1 [d] ∧ (read esz len (run esz init l)).2.pend = [] ∧ seen 2 [d] = [d] := by
  have h := run_inv l init inv_init hf
  rw [read_pend h (by rw [hp]; simp), if_neg (by rw [hp]; simp; omega), hp]
  exact ⟨rfl, rfl, rfl⟩

/-- A tree of three directories and another one. -/
def session : List Op := [.add [4, 5, 6], .add [7], .change 5, .read 1024, .change 7, .change 4, .rm 4]

example : Fair 32 init session ∧ (run 32 init session).pend = [7] := by
  refine ⟨?_, by decide⟩
  refine ⟨by simp [init], by simp, ⟨?_, by simp, by simp, by simp, by simp, by simp, by simp, by simp, by simp, by simp, by simp, ?_, trivial⟩⟩
  · intro ds hd; injection hd with hd; subst hd; simp [step, init]
  · intro d hd; injection hd with hd; subst hd; decide

/-- The value read is the number of records, not of bytes, so it is never the number of bytes in the buffer. -/
theorem returns_records (esz len : Nat) (he : 2 ≤ esz) (l : List Op) (hf : Fair esz init l) (hp : (run esz init l).pend ≠ []) (n : Nat)
    (recs : List Nat) (hr : (read esz len (run esz init l)).1 = .got n recs) : n = recs.length ∧ n ≠ recs.length * esz := by
  have h := run_inv l init inv_init hf
  rw [read_pend h hp] at hr
  have h0 : 0 < (run esz init l).pend.length := List.length_pos_iff.2 hp
  split at hr
  · simp at hr
  · simp only [Out.got.injEq] at hr
    obtain ⟨h1, h2⟩ := hr
    subst h1; subst h2
    refine ⟨rfl, ?_⟩
    have := Nat.mul_le_mul_left (run esz init l).pend.length he
    omega

/-- Whatever the size of the buffer: with enough directories that changed, the kernel writes beyond it. -/
theorem any_buffer_overrun (esz len : Nat) (ds : List Nat) (hn : ds.Nodup) (hd : len < ds.length * esz) :
    ∃ l, Fair esz init l ∧ (run esz init l).dirs = ds ∧ (read esz len (run esz init l)).1 = .overflow := by
  -- all directories are added and changed
  have key : ∀ (cs : List Nat) (s : St), (∀ c ∈ cs, c ∈ s.dirs) → cs.Nodup → (∀ c ∈ cs, c ∉ s.pend) →
      Fair esz s (cs.map .change) ∧ run esz s (cs.map .change) = { s with pend := s.pend ++ cs } := by
    intro cs
    induction cs with
    | nil => intro s _ _ _; exact ⟨trivial, by simp [run]⟩
    | cons c cs ih =>
      intro s h1 h2 h3
      simp only [List.nodup_cons] at h2
      have e : (step esz s (.change c)).2 = { s with pend := s.pend ++ [c] } := by
        simp only [step]
        rw [if_pos ⟨h1 c (by simp), h3 c (by simp)⟩]
      obtain ⟨i1, i2⟩ := ih { s with pend := s.pend ++ [c] } (fun x hx => h1 x (List.mem_cons_of_mem _ hx)) h2.2 (fun x hx => by
        simp only [List.mem_append, List.mem_singleton, not_or]
        exact ⟨h3 x (List.mem_cons_of_mem _ hx), fun he => h2.1 (by rw [← he]; exact hx)⟩)
      refine ⟨⟨by simp, by simp, by rw [e]; exact i1⟩, ?_⟩
      have : run esz s ((c :: cs).map .change) = run esz (step esz s (.change c)).2 (cs.map .change) := rfl
      rw [this, e, i2]
      simp
  have e0 : (step esz init (.add ds)).2 = ⟨ds.length, ds, []⟩ := by simp [step, init]
  obtain ⟨k1, k2⟩ := key ds ⟨ds.length, ds, []⟩ (fun c hc => hc) hn (by simp)
  have hf : Fair esz init (.add ds :: ds.map .change) := ⟨by simp [init, hn], by simp, by rw [e0]; exact k1⟩
  have hrun : run esz init (.add ds :: ds.map .change) = ⟨ds.length, ds, ds⟩ := by
    have : run esz init (.add ds :: ds.map .change) = run esz (step esz init (.add ds)).2 (ds.map .change) := rfl
    rw [this, e0, k2]
    simp
  refine ⟨_, hf, by rw [hrun], ?_⟩
  have hi := run_inv _ init inv_init hf
  have hne : ds ≠ [] := by intro h; subst h; simp at hd
  rw [hrun] at hi ⊢
  rw [read_pend hi hne, if_pos hd]

/-- The buffer of examples/inotify.c:8, `1024 * (sizeof (inotify_t) + 16)` bytes, and a tree of 1537 directories. -/
example : 1024 * (32 + 16) < (List.range 1537).length * 32 ∧ (List.range 1537).Nodup := by
  refine ⟨by rw [List.length_range]; omega, List.nodup_range⟩

/-- Of several changes fetched by one read the program sees the first; the others are gone. -/
theorem others_lost (esz len : Nat) (l : List Op) (hf : Fair esz init l) (a b : Nat) (rest : List Nat)
    (hp : (run esz init l).pend = a :: b :: rest) (hl : (rest.length + 2) * esz ≤ len) (k : Nat) :
    ∃ recs, (read esz len (run esz init l)).1 = .got (rest.length + 2) recs ∧ seen (k + 1) recs = [a] ∧
      (read esz len (run esz init l)).2.pend = [] := by
  have h := run_inv l init inv_init hf
  rw [read_pend h (by rw [hp]; simp), if_neg (by rw [hp]; simp; omega), hp]
  exact ⟨_, rfl, rfl, rfl⟩

example : Fair 32 init [.add [4, 5], .change 4, .change 5] ∧ (run 32 init [.add [4, 5], .change 4, .change 5]).pend = [4, 5] :=
  ⟨⟨by simp [init], by simp, by simp, by simp, by simp, by simp, trivial⟩, by decide⟩

end Verif.Kq.SyncRead
