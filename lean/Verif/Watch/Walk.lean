import Mathlib.Data.List.Basic
import Mathlib.Data.List.Nodup
import Verif.Mem

/-!
# Watching the directories below a directory (C198)

`inotify_recursive` of `src/os_unix.c` (Linux), and `inotify_directories` of `src/os_windows.c`, which keeps the names only.  The file
system is an oracle that does not change meanwhile.
-/

namespace Verif.Watch.Walk

/-- `"."` or `".."`. -/
def dots (n : Bytes) : Bool := n == [46] || n == [46, 46]

/-- The file system: the names `readdir` gives with `d_type == DT_DIR` in the directory of this path, in order (empty if it cannot be
opened), and whether the path can be watched (on Windows always `true`). -/
structure Fs where
  dirs : Bytes → List Bytes
  can : Bytes → Bool

/-- `snprintf(subpath, path_max, "%s%s%s", path, SYS_DIRSEP, entry->d_name)`, src/os_unix.c:1364: at most `max - 1` bytes. -/
def join (max : Nat) (path name : Bytes) : Bytes := (path ++ 47 :: name).take (max - 1)

/-- `inotify_recursive(fd, path, …)`, src/os_unix.c:1351-1379: the paths watched, in order.  `none`: not at an end after `n` levels.
Each path is copied (1372) before the recursion overwrites the buffer.  `inotify_directories`, src/os_windows.c:1648-1671, is the same
with `NAME_MAX` for `max` and the separator `\\`. -/
def walk (f : Fs) (max : Nat) : Nat → Bytes → Option (List Bytes)
  | 0, _ => none
  | n + 1, path =>
    (((f.dirs path).filter fun x => !dots x).mapM fun x =>
      if f.can (join max path x) then (walk f max n (join max path x)).map (join max path x :: ·) else some []).map List.flatten

/-! ## What should be watched -/

/-- The names `.` and `..`, which every directory has. -/
def Special (n : Bytes) : Prop := n = [46] ∨ n = [46, 46]

/-- `q` is a directory in `p` that can be watched. -/
def Child (f : Fs) (p q : Bytes) : Prop := ∃ x ∈ f.dirs p, ¬ Special x ∧ q = p ++ 47 :: x ∧ f.can q = true

theorem dots_iff (x : Bytes) : dots x = false ↔ ¬ Special x := by
  unfold dots Special
  simp

/-- `q` is below `p`. -/
inductive Below (f : Fs) : Bytes → Bytes → Prop
  | child {p q} : Child f p q → Below f p q
  | deeper {p q r} : Child f p q → Below f q r → Below f p r

theorem Below.prefix {f : Fs} {p q : Bytes} (h : Below f p q) : ∃ x t, x ∈ f.dirs p ∧ q = p ++ 47 :: (x ++ t) ∧ (t = [] ∨ ∃ u, t = 47 :: u) := by
  induction h with
  | child hc => obtain ⟨x, hx, _, rfl, _⟩ := hc; exact ⟨x, [], hx, by simp, Or.inl rfl⟩
  | deeper hc _ ih =>
    obtain ⟨x, hx, _, rfl, _⟩ := hc
    obtain ⟨y, t, _, rfl, _⟩ := ih
    exact ⟨x, 47 :: (y ++ t), hx, by simp, Or.inr ⟨_, rfl⟩⟩

theorem mapM_some {α β : Type} {g : α → Option β} {g' : α → β} : ∀ {l : List α}, (∀ x ∈ l, g x = some (g' x)) →
    l.mapM g = some (l.map g') := by
  intro l
  induction l with
  | nil => intro _; rfl
  | cons x t ih =>
    intro h
    rw [List.mapM_cons, h x (by simp), ih (fun y hy => h y (by simp [hy]))]
    rfl

theorem mapM_none {α β : Type} {g : α → Option β} {x : α} : ∀ {l : List α}, x ∈ l → g x = none → l.mapM g = none := by
  intro l
  induction l with
  | nil => intro h; simp at h
  | cons y t ih =>
    intro hx hg
    rw [List.mapM_cons]
    rcases List.mem_cons.1 hx with rfl | hx
    · rw [hg]; rfl
    · cases g y with
      | none => rfl
      | some b => rw [show (some b >>= fun c => (do let r ← t.mapM g; pure (c :: r))) = (do let r ← t.mapM g; pure (b :: r)) from rfl,
          ih hx hg]; rfl

/-- All paths fit. -/
def Short (f : Fs) (max : Nat) (p : Bytes) : Prop :=
  ∀ q, (q = p ∨ Below f p q) → ∀ x ∈ f.dirs q, (q ++ 47 :: x).length < max

theorem Short.child {f : Fs} {max : Nat} {p q : Bytes} (h : Short f max p) (hc : Child f p q) : Short f max q := by
  intro r hr
  rcases hr with rfl | hr
  · exact h r (Or.inr (.child hc))
  · exact h r (Or.inr (.deeper hc hr))

theorem join_short {f : Fs} {max : Nat} {p : Bytes} (h : Short f max p) {x : Bytes} (hx : x ∈ f.dirs p) : join max p x = p ++ 47 :: x := by
  have := h p (Or.inl rfl) x hx
  exact List.take_of_length_le (by omega)

/-- Names of directories have no slash in them, and a directory has no two of the same name. -/
def Names (f : Fs) : Prop := ∀ p, (f.dirs p).Nodup ∧ ∀ x ∈ f.dirs p, (47 : UInt8) ∉ x

theorem head_unique {x y t u : Bytes} (hx : (47 : UInt8) ∉ x) (hy : (47 : UInt8) ∉ y) (ht : t = [] ∨ ∃ t', t = 47 :: t')
    (hu : u = [] ∨ ∃ u', u = 47 :: u') (h : x ++ t = y ++ u) : x = y := by
  induction x generalizing y with
  | nil =>
    cases y with
    | nil => rfl
    | cons b y =>
      simp only [List.nil_append] at h
      rcases ht with rfl | ⟨t', rfl⟩
      · simp at h
      · simp at h; exact absurd h.1 (by rintro rfl; simp at hy)
  | cons a x ih =>
    cases y with
    | nil =>
      simp only [List.nil_append] at h
      rcases hu with rfl | ⟨u', rfl⟩
      · simp at h
      · simp at h; exact absurd h.1.symm (by rintro rfl; simp at hx)
    | cons b y =>
      simp only [List.cons_append, List.cons.injEq] at h
      obtain ⟨rfl, h⟩ := h
      rw [ih (by simp at hx; exact hx.2) (by simp at hy; exact hy.2) h]

/-- In a tree of finite height (`h` grows from child to parent) whose paths are all shorter than the buffer, every directory below is
watched, nothing else, each once. -/
theorem watches_all_below_partial (f : Fs) (max : Nat) (hn : Names f) (h : Bytes → Nat) (hh : ∀ p q, Child f p q → h q < h p) :
    ∀ (n : Nat) (p : Bytes), h p < n → Short f max p → ∃ l, walk f max n p = some l ∧ (∀ q, q ∈ l ↔ Below f p q) ∧ l.Nodup := by
  intro n
  induction n with
  | zero => intro p hp; omega
  | succ n ih =>
    intro p hp hs
    -- what one subdirectory gives
    have hone : ∀ x, ∃ l, (x ∈ (f.dirs p).filter (fun x => !dots x) →
        (if f.can (join max p x) then (walk f max n (join max p x)).map (join max p x :: ·) else some []) = some l ∧
        (∀ q, q ∈ l ↔ f.can (p ++ 47 :: x) = true ∧ (q = p ++ 47 :: x ∨ Below f (p ++ 47 :: x) q)) ∧ l.Nodup) := by
      intro x
      by_cases hx : x ∈ (f.dirs p).filter (fun x => !dots x)
      · obtain ⟨hxd, hxn⟩ := List.mem_filter.1 hx
        have hj := join_short hs hxd
        by_cases hc : f.can (p ++ 47 :: x) = true
        · have hch : Child f p (p ++ 47 :: x) := ⟨x, hxd, (dots_iff x).1 (by simpa using hxn), rfl, hc⟩
          obtain ⟨l, h1, h2, h3⟩ := ih (p ++ 47 :: x) (by have := hh _ _ hch; omega) (hs.child hch)
          refine ⟨(p ++ 47 :: x) :: l, fun _ => ⟨?_, ?_, ?_⟩⟩
          · rw [hj, if_pos hc, h1]; rfl
          · intro q
            rw [List.mem_cons, h2 q]
            simp [hc]
          · rw [List.nodup_cons]
            refine ⟨fun hm => ?_, h3⟩
            obtain ⟨y, t, _, he, _⟩ := ((h2 _).1 hm).prefix
            have := congrArg List.length he
            simp at this
        · refine ⟨[], fun _ => ⟨?_, ?_, List.nodup_nil⟩⟩
          · rw [hj, if_neg hc]
          · intro q; simp [hc]
      · exact ⟨[], fun h => absurd h hx⟩
    choose g hg using hone
    refine ⟨((((f.dirs p).filter fun x => !dots x).map g)).flatten, ?_, ?_, ?_⟩
    · rw [walk, mapM_some (g' := g) (fun x hx => (hg x hx).1)]
      rfl
    · intro q
      rw [List.mem_flatten]
      constructor
      · rintro ⟨l, hl, hq⟩
        obtain ⟨x, hx, rfl⟩ := List.mem_map.1 hl
        obtain ⟨hxd, hxn⟩ := List.mem_filter.1 hx
        obtain ⟨hc, hq⟩ := ((hg x hx).2.1 q).1 hq
        have hch : Child f p (p ++ 47 :: x) := ⟨x, hxd, (dots_iff x).1 (by simpa using hxn), rfl, hc⟩
        rcases hq with rfl | hq
        · exact .child hch
        · exact .deeper hch hq
      · intro hb
        cases hb with
        | child hc =>
          obtain ⟨x, hx, hd, rfl, hcan⟩ := hc
          have hm : x ∈ (f.dirs p).filter (fun x => !dots x) := List.mem_filter.2 ⟨hx, by simp [(dots_iff x).2 hd]⟩
          exact ⟨g x, List.mem_map.2 ⟨x, hm, rfl⟩, ((hg x hm).2.1 _).2 ⟨hcan, Or.inl rfl⟩⟩
        | deeper hc hb =>
          obtain ⟨x, hx, hd, rfl, hcan⟩ := hc
          have hm : x ∈ (f.dirs p).filter (fun x => !dots x) := List.mem_filter.2 ⟨hx, by simp [(dots_iff x).2 hd]⟩
          exact ⟨g x, List.mem_map.2 ⟨x, hm, rfl⟩, ((hg x hm).2.1 _).2 ⟨hcan, Or.inr hb⟩⟩
    · rw [List.nodup_flatten]
      refine ⟨?_, ?_⟩
      · intro l hl
        obtain ⟨x, hx, rfl⟩ := List.mem_map.1 hl
        exact (hg x hx).2.2
      · rw [List.pairwise_map]
        have hnd : ((f.dirs p).filter fun x => !dots x).Nodup := (hn p).1.filter _
        refine List.Pairwise.imp_of_mem ?_ hnd
        intro x y hx hy hxy q hqx hqy
        have key : ∀ z ∈ (f.dirs p).filter (fun x => !dots x), q ∈ g z → ∃ t, q = p ++ 47 :: (z ++ t) ∧ (t = [] ∨ ∃ u, t = 47 :: u) := by
          intro z hz hqz
          obtain ⟨_, hq⟩ := ((hg z hz).2.1 q).1 hqz
          rcases hq with rfl | hq
          · exact ⟨[], by simp, Or.inl rfl⟩
          · obtain ⟨w, t, _, rfl, _⟩ := hq.prefix
            exact ⟨47 :: (w ++ t), by simp, Or.inr ⟨_, rfl⟩⟩
        obtain ⟨t, h1, ht⟩ := key x hx hqx
        obtain ⟨u, h2, hu⟩ := key y hy hqy
        rw [h1] at h2
        have h3 : x ++ t = y ++ u := by simpa using h2
        exact hxy (head_unique ((hn p).2 x (List.mem_filter.1 hx).1) ((hn p).2 y (List.mem_filter.1 hy).1) ht hu h3)

/-- A directory `a` with `b` and `.` in it, `b` with `c`. -/
def small : Fs where
  dirs p := if p = [97] then [[46], [98]] else if p = [97, 47, 98] then [[99]] else []
  can _ := true

example : walk small 4096 3 [97] = some [[97, 47, 98], [97, 47, 98, 47, 99]] := by decide

theorem small_dirs {p x : Bytes} (h : x ∈ small.dirs p) : p = [97] ∧ (x = [46] ∨ x = [98]) ∨ p = [97, 47, 98] ∧ x = [99] := by
  simp only [small] at h
  split at h
  · next hp => left; simpa [hp] using h
  · split at h
    · next hp => right; simpa [hp] using h
    · simp at h

example : ∃ l, walk small 4096 3 [97] = some l ∧ (∀ q, q ∈ l ↔ Below small [97] q) ∧ l.Nodup :=
  watches_all_below_partial small 4096
    (fun p => ⟨by simp only [small]; split <;> [decide; (split <;> decide)],
      fun x hx => by rcases small_dirs hx with ⟨_, rfl | rfl⟩ | ⟨_, rfl⟩ <;> decide⟩)
    (fun p => if p = [97] then 2 else if p = [97, 47, 98] then 1 else 0)
    (fun p q ⟨x, hx, hd, hq, _⟩ => by
      rcases small_dirs hx with ⟨rfl, rfl | rfl⟩ | ⟨rfl, rfl⟩
      · simp [Special] at hd
      · subst hq; decide
      · subst hq; decide)
    3 [97] (by decide) (fun q _ x hx => by rcases small_dirs hx with ⟨rfl, rfl | rfl⟩ | ⟨rfl, rfl⟩ <;> decide)

/-- If a watched directory's path fills the buffer and it has a directory in it, the path of the latter is cut off to that of the former,
and the recursion never ends: the descriptor table and the stack are used up. -/
theorem full_path_never_ends (f : Fs) {max : Nat} {p x : Bytes} (hp : p.length = max - 1) (hc : f.can p = true) (hx : x ∈ f.dirs p)
    (hd : ¬ Special x) (n : Nat) : walk f max n p = none := by
  have hj : join max p x = p := by
    unfold join
    rw [← hp, List.take_left']
    rfl
  induction n with
  | zero => rfl
  | succ n ih =>
    rw [walk, mapM_none (x := x) (List.mem_filter.2 ⟨hx, by simp [(dots_iff x).2 hd]⟩) (by rw [hj, if_pos hc, ih]; rfl)]
    rfl

end Verif.Watch.Walk
