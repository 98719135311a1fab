import Verif.Win.Child

/-!
# Properties of watched directories and of the output of child processes for Windows
-/

namespace Verif.Win

/-- Where the `i`-th record starts. -/
def offsetOf (batch : List Change) (i : Nat) : Nat := ((batch.take i).map Change.size).sum

/-- C172 (the part that holds): as long as each report has only one change, all changes are handed to the user's
function, in order, and `inotify_next` says that there is no other.  Missing: several at once (`changes_lost`,
`inotify_next_wrong`). -/
theorem one_change_partial (batches : List (List Change)) (h : ∀ b ∈ batches, b.length ≤ 1) (p : Nat) :
    batches.flatMap handled = batches.flatten ∧ ∀ b ∈ batches, inotifyNext p (nextEntryOffset b) = none := by
  constructor
  · induction batches with
    | nil => rfl
    | cons b bs ih =>
      rw [List.flatMap_cons, List.flatten_cons, ih (fun x hx => h x (List.mem_cons_of_mem _ hx))]
      have := h b List.mem_cons_self
      match b, this with
      | [], _ => rfl
      | [c], _ => rfl
  · intro b hb
    have := h b hb
    match b, this with
    | [], _ => rfl
    | [c], _ => rfl

/-- C172, negated: as soon as one report has more than one change, changes are lost. -/
theorem changes_lost (batches : List (List Change)) (b : List Change) (hb : b ∈ batches) (h2 : 1 < b.length) :
    (batches.flatMap handled).length < batches.flatten.length := by
  have hle : ∀ b : List Change, (handled b).length ≤ b.length := by
    intro b
    cases b <;> simp [handled]
  have hle' : ∀ bs : List (List Change), (bs.flatMap handled).length ≤ bs.flatten.length := by
    intro bs
    induction bs with
    | nil => simp
    | cons b bs ih =>
      rw [List.flatMap_cons, List.flatten_cons, List.length_append, List.length_append]
      have := hle b
      omega
  induction batches with
  | nil => simp at hb
  | cons x bs ih =>
    rw [List.flatMap_cons, List.flatten_cons, List.length_append, List.length_append]
    rcases List.mem_cons.1 hb with rfl | hb
    · have h1 : (handled b).length < b.length := by
        match b, h2 with
        | c :: d :: r, _ => simp [handled]
      have := hle' bs
      omega
    · have := ih hb
      have := hle x
      omega

/-- C172, negated: at every record but the last of every batch, `inotify_next` returns a pointer that is not the next
record; it is out of the buffer if that is shorter than sixteen times the record. -/
theorem inotify_next_wrong (batch : List Change) (hs : ∀ c ∈ batch, 12 ≤ c.size) (i : Nat) (hi : i + 1 < batch.length) :
    ∃ q, inotifyNext (offsetOf batch i) (nextEntryOffset (batch.drop i)) = some q ∧ q ≠ offsetOf batch (i + 1) ∧
      q = offsetOf batch i + 16 * (offsetOf batch (i + 1) - offsetOf batch i) := by
  have h1 : i < batch.length := by omega
  have e : batch.drop i = batch[i] :: batch[i + 1] :: batch.drop (i + 2) := by
    rw [List.drop_eq_getElem_cons h1, List.drop_eq_getElem_cons hi]
  have hsz := hs batch[i] (List.getElem_mem h1)
  have ho : offsetOf batch (i + 1) = offsetOf batch i + batch[i].size := by
    unfold offsetOf
    rw [List.take_succ_eq_append_getElem h1, List.map_append, List.sum_append]
    simp only [List.map_cons, List.map_nil, List.sum_cons, List.sum_nil, Nat.add_zero]
  rw [e]
  have hn : nextEntryOffset (batch[i] :: batch[i + 1] :: batch.drop (i + 2)) = batch[i].size := rfl
  rw [hn]
  refine ⟨offsetOf batch i + batch[i].size * 16, ?_, by omega, by omega⟩
  unfold inotifyNext changeSize
  rw [if_pos (by omega)]

example : inotifyNext 0 (nextEntryOffset [⟨1, [97], 16⟩, ⟨3, [98], 16⟩]) = some 256 ∧
    handled [⟨1, [97], 16⟩, ⟨3, [98], 16⟩] = [⟨1, [97], 16⟩] := by decide

/-! ### Output of a child process -/

/-- The chunks read in a run. -/
def chunks : List PumpOp → List Bytes
  | [] => []
  | .read c :: ops => c :: chunks ops
  | .dispatch :: ops => chunks ops

/-- C173: the loop makes one call for each chunk that was read, with as many bytes as the chunk has. -/
theorem pump_lengths (ops : List PumpOp) :
    (pump {} ops).calls.map List.length ++ (pump {} ops).posted = (chunks ops).map List.length := by
  have inv : ∀ (ops : List PumpOp) (s : Pump) (done : List Bytes),
      (s.calls.map List.length ++ s.posted = done.map List.length) → (∀ n ∈ s.posted, n ≤ s.buf.length) →
      ((pump s ops).calls.map List.length ++ (pump s ops).posted = (done ++ chunks ops).map List.length) := by
    intro ops
    induction ops with
    | nil => intro s done h _; simpa [pump, chunks] using h
    | cons o ops ih =>
      intro s done h hb
      cases o with
      | read c =>
        have := ih (pumpStep s (.read c)) (done ++ [c]) (by simp [pumpStep, ← h]) (by
          intro n hn
          simp only [pumpStep, List.mem_append, List.mem_singleton] at hn
          simp only [pumpStep, List.length_append, List.length_cons, List.length_drop]
          rcases hn with hn | rfl
          · have := hb n hn
            omega
          · omega)
        simpa [pump, chunks] using this
      | dispatch =>
        cases hp : s.posted with
        | nil =>
          have := ih s done h hb
          simpa [pump, chunks, pumpStep, hp] using this
        | cons n rest =>
          have hn := hb n (by rw [hp]; exact List.mem_cons_self)
          have := ih (pumpStep s .dispatch) done (by
            simp only [pumpStep, hp, List.map_append, List.map_cons, List.map_nil, List.length_take, Nat.min_eq_left hn]
            rw [← h, hp]
            simp) (by
            intro m hm
            simp only [pumpStep, hp] at hm
            simp only [pumpStep, hp]
            exact hb m (by rw [hp]; exact List.mem_cons_of_mem _ hm))
          simpa [pump, chunks, pumpStep, hp] using this
  simpa using inv ops {} [] rfl (by simp)

/-- Each chunk is fetched before the next is read. -/
def lockstep : List Bytes → List PumpOp
  | [] => []
  | c :: cs => .read c :: .dispatch :: lockstep cs

/-- C173 (the part that holds): when the loop fetches each chunk before the next is read, the user's function sees the
chunks, all of them, in order.  Missing: nothing makes the reading thread wait (`pump_overwrites`). -/
theorem pump_partial (cs : List Bytes) : (pump {} (lockstep cs)).calls = cs := by
  have : ∀ (cs : List Bytes) (s : Pump), s.posted = [] → (pump s (lockstep cs)).calls = s.calls ++ cs := by
    intro cs
    induction cs with
    | nil => intro s _; simp [lockstep, pump]
    | cons c cs ih =>
      intro s hs
      have := ih (pumpStep (pumpStep s (.read c)) .dispatch) (by simp [pumpStep, hs])
      simp only [lockstep, pump, List.foldl_cons] at this ⊢
      rw [this]
      simp [pumpStep, hs]
  simpa using this cs {} rfl

/-- C173, negated: whenever a second chunk of the same size is read before the first is fetched, the user's function is
called twice with the second, and the first is lost. -/
theorem pump_overwrites (a b : Bytes) (h : a.length = b.length) :
    (pump {} [.read a, .read b, .dispatch, .dispatch]).calls = [b, b] := by
  simp [pump, pumpStep, h]

example : (pump {} [.read [1, 2], .read [3, 4, 5], .dispatch, .dispatch]).calls = [[3, 4], [3, 4, 5]] := by decide

/-! ### Pipes to child processes -/

/-- C174 (the part that holds): with none of the pipes open, a child can be started, and again when it has ended.
Missing: a second child at the same time (`second_child_fails`). -/
theorem child_partial (pipes : List String) (env : Bool) :
    ∃ p, spawnPipes (childGone pipes) env = some p ∧ ∃ q, spawnPipes (childGone p) env = some q := by
  have key : ∀ pipes : List String, ∃ p, spawnPipes (childGone pipes) env = some p := by
    intro pipes
    have h1 : "spawn_in" ∉ childGone pipes := by simp [childGone]
    have h2 : "spawn_out" ∉ "spawn_in" :: childGone pipes := by simp [childGone]
    have h3 : "spawn_err" ∉ "spawn_out" :: "spawn_in" :: childGone pipes := by simp [childGone]
    unfold spawnPipes createPipe
    rw [if_neg h1]
    dsimp only
    rw [if_neg h2]
    dsimp only
    rw [if_neg h3]
    cases env <;> simp
  obtain ⟨p, hp⟩ := key pipes
  exact ⟨p, hp, key p⟩

/-- C174, negated: while a child started with a function for its output runs, no other one can be started. -/
theorem second_child_fails (pipes p : List String) (env env' : Bool) (h : spawnPipes pipes env = some p) :
    spawnPipes p env' = none := by
  have hin : "spawn_in" ∈ p := by
    unfold spawnPipes createPipe at h
    split at h
    · simp at h
    · rename_i q hq
      split at hq
      · simp at hq
      · obtain rfl := Option.some.inj hq
        split at h
        · simp at h
        · rename_i r hr
          split at hr
          · simp at hr
          · obtain rfl := Option.some.inj hr
            split at h
            · split at h
              · simp at h
              · obtain rfl := Option.some.inj h
                simp
            · obtain rfl := Option.some.inj h
              simp
  unfold spawnPipes createPipe
  rw [if_pos hin]

example : spawnPipes [] false = some ["spawn_out", "spawn_in"] := by decide

end Verif.Win
