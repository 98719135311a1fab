import Verif.Tasks.Results
import Mathlib.Data.List.Nodup
import Mathlib.Data.List.Range
import Mathlib.Tactic.NormNum

/-!
Properties of task ids, results and cancellation (C36, C57).
-/
namespace Verif.Tasks

/-! Specification: what the user did. -/

structure Spec where
  tasks : List (Option Nat)            -- per task, in creation order: its result number if it has one
  outs : List (Option (Option Val))    -- per result: `none` while running, else what the task returned
  canceled : List Nat                  -- result numbers cancelled

def Spec.init : Spec := ⟨[], [], []⟩

/-- `none`: a task that does not exist, or has already returned, cannot return. -/
def specOp (a : Spec) : Op → Option Spec
  | .push true _ => some { a with tasks := a.tasks ++ [some a.outs.length], outs := a.outs ++ [none] }
  | .push false _ => some { a with tasks := a.tasks ++ [none] }
  | .finish k v => match a.tasks[k]? with
    | some (some r) => if a.outs[r]? = some none then some { a with outs := a.outs.set r (some v) } else none
    | some none => some a
    | none => none
  | .cancel id => some { a with canceled := if 0 < id ∧ id < a.outs.length then id :: a.canceled else a.canceled }

def specOps (a : Spec) : List Op → Option Spec
  | [] => some a
  | op :: ops => (specOp a op).bind (fun a => specOps a ops)

/-! Invariant -/

def entryOf (a : Spec) (r : Nat) (o : Option (Option Val)) : Entry :=
  { canceled := decide (r ∈ a.canceled)
    ready := (match o with | some (some _) => true | _ => false)
    terminated := o.isSome
    val := o.getD none }

structure Inv (q : Nat) (s : RS) (a : Spec) : Prop where
  gen : s.gen = a.outs.length
  entLen : s.ents.length = a.outs.length
  ents : ∀ (r : Nat) (o : Option (Option Val)), a.outs[r]? = some o → s.ents[r]? = some (entryOf a r o)
  cidGen : s.cidGen = a.tasks.length
  taskLen : s.tasks.length = a.tasks.length
  tasks : ∀ (k : Nat) (o : Option Nat), a.tasks[k]? = some o → s.tasks[k]? = some ⟨(k + 1) % 2 ^ 32, o.getD noResult⟩
  rids : ∀ r, some r ∈ a.tasks → r < a.outs.length
  canc : ∀ r ∈ a.canceled, r < a.outs.length
  table : (a.outs = [] ∧ s.cur = none) ∨ ∃ b blk, s.cur = some b ∧ s.blocks[b]? = some (some blk) ∧ 0 < a.outs.length ∧
    blk.len = (a.outs.length - 1) / q * q + q ∧ ∀ i < a.outs.length, blk.slot i = some i

/-- A new entry. -/
def freshEntry : Entry := { }

theorem inv_init (q : Nat) : Inv q RS.init Spec.init :=
  ⟨rfl, rfl, (fun r o h => by simp [Spec.init] at h), rfl, rfl, (fun k o h => by simp [Spec.init] at h),
    (fun r h => by simp [Spec.init] at h), (fun r h => by simp [Spec.init] at h), Or.inl ⟨rfl, rfl⟩⟩

theorem slot_ok {q : Nat} (hq : 0 < q) {s : RS} {a : Spec} (h : Inv q s a) {r : Nat} (hr : r < a.outs.length) :
    slotAt s s.cur r = .ok r := by
  rcases h.table with ⟨e, _⟩ | ⟨b, blk, hc, hb, hpos, hlen, hsl⟩
  · rw [e] at hr; simp at hr
  · have hlt : r < blk.len := by
      rw [hlen]
      have := Nat.div_add_mod (a.outs.length - 1) q
      have h2 := Nat.mod_lt (a.outs.length - 1) hq
      rw [Nat.mul_comm] at this
      omega
    unfold slotAt loadBlock
    rw [hc]
    simp only [hb, Res.ok_bind]
    rw [if_pos hlt, hsl r hr]
    rfl

theorem get_ok {q : Nat} (hq : 0 < q) {s : RS} {a : Spec} (h : Inv q s a) {r : Nat} {o : Option (Option Val)}
    (ho : a.outs[r]? = some o) : resultGet s r = .ok (entryOf a r o) := by
  obtain ⟨hr, _⟩ := List.getElem?_eq_some_iff.1 ho
  unfold resultGet
  rw [slot_ok hq h hr, Res.ok_bind, h.ents r o ho]
  rfl

/-- The table steps of `tasks_create_result`. -/
theorem create_ok {q : Nat} (hq : 0 < q) (mv : Bool) (c : Nat) {s : RS} {a : Spec} (h : Inv q s a) :
    ∃ s', createResult q mv { s with cidGen := c } = .ok (s', a.outs.length) ∧ s'.gen = a.outs.length + 1 ∧ s'.cidGen = c ∧
      s'.tasks = s.tasks ∧ s'.ents = s.ents ++ [freshEntry] ∧
      ∃ b blk, s'.cur = some b ∧ s'.blocks[b]? = some (some blk) ∧ blk.len = a.outs.length / q * q + q ∧
        ∀ i < a.outs.length + 1, blk.slot i = some i := by
  have hn := h.gen
  obtain ⟨n, hn'⟩ : ∃ n, n = a.outs.length := ⟨_, rfl⟩
  rw [← hn'] at hn
  rw [← hn']
  have hel : s.ents.length = n := by rw [h.entLen, hn']
  unfold createResult createFetch createGrow
  simp only
  rw [hn]
  rcases h.table with ⟨e, hc⟩ | ⟨b, blk, hc, hb, hpos, hlen, hsl⟩
  · have h0 : n = 0 := by rw [hn', e]; rfl
    rw [if_pos (Or.inr hc)]
    simp only [hc, reallocTable, Res.ok_bind, createWrite, writeSlot, loadBlock, List.getElem?_concat_length]
    rw [if_pos (by omega : n < n + q)]
    simp only [Res.ok_bind]
    refine ⟨_, rfl, rfl, rfl, rfl, rfl, s.blocks.length, ⟨n + q, Function.update (fun _ => none) n (some s.ents.length)⟩, rfl, ?_, ?_, ?_⟩
    · simp only [storeTable]
      rw [List.getElem?_set_self (by simp)]
    · simp [h0]
    · intro i hi
      have : i = n := by omega
      subst this
      simp only [Function.update_self, hel]
  · rw [← hn'] at hpos hlen hsl
    have hbl : b < s.blocks.length := (List.getElem?_eq_some_iff.1 hb).1
    by_cases hm : n % q = 0
    · rw [if_pos (Or.inl hm)]
      have hdiv : n / q * q + q = n + q := by
        have := Nat.div_add_mod n q
        rw [hm, Nat.mul_comm] at this; omega
      have hold : n ≤ blk.len := by
        rw [hlen]
        have h1 := Nat.div_add_mod (n - 1) q
        have h2 := Nat.mod_lt (n - 1) hq
        rw [Nat.mul_comm] at h1
        omega
      have hslot : ∀ i < n + 1, (Function.update (fun i => if i < blk.len then blk.slot i else none) n (some s.ents.length)) i
          = some i := by
        intro i hi
        by_cases e : i = n
        · subst e; rw [Function.update_self, hel]
        · rw [Function.update_of_ne e, if_pos (by omega)]; exact hsl i (by omega)
      cases mv with
      | true =>
        simp only [hc, reallocTable, loadBlock, hb, Res.ok_bind, if_true, createWrite, writeSlot]
        rw [show (s.blocks.set b none ++ [some { len := n + q, slot := fun i => if i < blk.len then blk.slot i else none }])[s.blocks.length]?
            = some (some { len := n + q, slot := fun i => if i < blk.len then blk.slot i else none }) by
          have : s.blocks.length = (s.blocks.set b none).length := by simp
          rw [this, List.getElem?_concat_length]]
        simp only [Res.ok_bind]
        rw [if_pos (by omega : n < n + q)]
        refine ⟨_, rfl, rfl, rfl, rfl, rfl, s.blocks.length, ⟨n + q, Function.update (fun i => if i < blk.len then blk.slot i else none) n (some s.ents.length)⟩, rfl, ?_, ?_, ?_⟩
        · simp only [storeTable]
          rw [List.getElem?_set_self (by simp)]
        · simp only; rw [hdiv]
        · intro i hi; exact hslot i hi
      | false =>
        simp only [hc, reallocTable, loadBlock, hb, Res.ok_bind, Bool.false_eq_true, if_false, createWrite, writeSlot]
        rw [List.getElem?_set_self hbl]
        simp only [Res.ok_bind]
        rw [if_pos (by omega : n < n + q)]
        refine ⟨_, rfl, rfl, rfl, rfl, rfl, b, ⟨n + q, Function.update (fun i => if i < blk.len then blk.slot i else none) n (some s.ents.length)⟩, rfl, ?_, ?_, ?_⟩
        · simp only [storeTable]
          rw [List.getElem?_set_self (by simpa using hbl)]
        · simp only; rw [hdiv]
        · intro i hi; exact hslot i hi
    · rw [if_neg (by rw [hc]; simp [hm])]
      have hsame : (n - 1) / q * q = n / q * q := by
        have : (n - 1) / q = n / q := by
          have h1 := Nat.div_add_mod n q
          have h2 : n - 1 = n / q * q + (n % q - 1) := by rw [Nat.mul_comm] at h1; omega
          rw [h2, Nat.mul_comm, Nat.mul_add_div hq, Nat.div_eq_of_lt (Nat.lt_of_le_of_lt (Nat.sub_le _ _) (Nat.mod_lt n hq)), Nat.add_zero]
        rw [this]
      have hlt : n < blk.len := by
        rw [hlen, hsame]
        have h1 := Nat.div_add_mod n q
        have h2 := Nat.mod_lt n hq
        rw [Nat.mul_comm] at h1
        omega
      simp only [hc, Res.ok_bind, createWrite, writeSlot, loadBlock, hb]
      rw [if_pos hlt]
      refine ⟨_, rfl, rfl, rfl, rfl, rfl, b, ⟨blk.len, Function.update blk.slot n (some s.ents.length)⟩, rfl, ?_, ?_, ?_⟩
      · simp only [storeTable]
        rw [List.getElem?_set_self hbl]
      · simp only; rw [hlen, hsame]
      · intro i hi
        simp only
        by_cases e : i = n
        · subst e; rw [Function.update_self, hel]
        · rw [Function.update_of_ne e]; exact hsl i (by omega)

theorem cid_eq (n : Nat) : (n % 2 ^ 32 + 1) % 2 ^ 32 = (n + 1) % 2 ^ 32 := by
  norm_num [Nat.add_mod]

theorem getElem?_concat_cases {α : Type} {l : List α} {x y : α} {k : Nat} (h : (l ++ [x])[k]? = some y) :
    l[k]? = some y ∨ (k = l.length ∧ x = y) := by
  by_cases hk : k < l.length
  · rw [List.getElem?_append_left hk] at h; exact Or.inl h
  · obtain ⟨hk2, _⟩ := List.getElem?_eq_some_iff.1 h
    have : k = l.length := by simp at hk2; omega
    subst this
    rw [List.getElem?_concat_length] at h
    cases h
    exact Or.inr ⟨rfl, rfl⟩

theorem tasks_concat {a : Spec} {s : RS} {o : Option Nat} (hl : s.tasks.length = a.tasks.length)
    (h : ∀ (k : Nat) (o : Option Nat), a.tasks[k]? = some o → s.tasks[k]? = some ⟨(k + 1) % 2 ^ 32, o.getD noResult⟩)
    {x : Task} (hx : x = ⟨(a.tasks.length + 1) % 2 ^ 32, o.getD noResult⟩) (k : Nat) (o' : Option Nat)
    (hk : (a.tasks ++ [o])[k]? = some o') : (s.tasks ++ [x])[k]? = some ⟨(k + 1) % 2 ^ 32, o'.getD noResult⟩ := by
  rcases getElem?_concat_cases hk with hk | ⟨rfl, rfl⟩
  · have := h k o' hk
    rw [List.getElem?_append_left (List.getElem?_eq_some_iff.1 this).1]
    exact this
  · rw [← hl, List.getElem?_concat_length, hx, hl]

theorem push_result {q : Nat} (hq : 0 < q) (mv : Bool) {s : RS} {a : Spec} (h : Inv q s a) (hb : a.outs.length + 1 < noResult) :
    ∃ s', taskPush q mv true s = .ok (s', a.outs.length) ∧
      Inv q s' { a with tasks := a.tasks ++ [some a.outs.length], outs := a.outs ++ [none] } := by
  obtain ⟨s', e, r1, r2, r3, r4, b, blk, r5, r6, r7, r8⟩ := create_ok hq mv (s.cidGen + 1) h
  have hmod : a.outs.length % 2 ^ 32 = a.outs.length := Nat.mod_eq_of_lt (by unfold noResult at hb; omega)
  refine ⟨{ s' with tasks := s'.tasks ++ [⟨(s.cidGen % 2 ^ 32 + 1) % 2 ^ 32, a.outs.length⟩] }, ?_, ?_⟩
  · unfold taskPush
    simp only [if_true]
    rw [e, Res.ok_bind]
    simp only [hmod]
  · refine ⟨?_, ?_, ?_, ?_, ?_, ?_, ?_, ?_, Or.inr ⟨b, blk, r5, r6, ?_, ?_, ?_⟩⟩
    · simp [r1]
    · simp [r4, h.entLen]
    · intro r o hr
      simp only [r4]
      rcases getElem?_concat_cases hr with hr | ⟨rfl, rfl⟩
      · rw [List.getElem?_append_left (by rw [h.entLen]; exact (List.getElem?_eq_some_iff.1 hr).1)]
        exact h.ents r o hr
      · rw [← h.entLen, List.getElem?_concat_length, h.entLen]
        have : a.outs.length ∉ a.canceled := fun hm => absurd (h.canc _ hm) (Nat.lt_irrefl _)
        simp [entryOf, this, freshEntry]
    · simp [r2, h.cidGen]
    · simp [r3, h.taskLen]
    · simp only [r3]
      exact tasks_concat h.taskLen h.tasks (by rw [cid_eq, h.cidGen]; rfl)
    · intro r hr
      rcases List.mem_append.1 hr with hr | hr
      · have := h.rids r hr; simp; omega
      · simp at hr; subst hr; simp
    · intro r hr; have := h.canc r hr; simp; omega
    · simp
    · simp [r7]
    · simpa using r8

theorem push_plain {q : Nat} (mv : Bool) {s : RS} {a : Spec} (h : Inv q s a) :
    ∃ s', taskPush q mv false s = .ok (s', (a.tasks.length + 1) % 2 ^ 32) ∧ Inv q s' { a with tasks := a.tasks ++ [none] } := by
  refine ⟨{ s with cidGen := s.cidGen + 1, tasks := s.tasks ++ [⟨(s.cidGen % 2 ^ 32 + 1) % 2 ^ 32, noResult⟩] }, ?_, ?_⟩
  · simp [taskPush, cid_eq, h.cidGen]
  · refine ⟨h.gen, h.entLen, h.ents, ?_, ?_, ?_, ?_, h.canc, h.table⟩
    · simp [h.cidGen]
    · simp [h.taskLen]
    · exact tasks_concat h.taskLen h.tasks (by rw [cid_eq, h.cidGen]; rfl)
    · intro r hr
      rcases List.mem_append.1 hr with hr | hr
      · exact h.rids r hr
      · simp at hr

theorem inv_ents_update {q : Nat} {s : RS} {a a' : Spec} (h : Inv q s a) {es : List Entry} {p : Option Nat} (hp : p = s.cur)
    (hlen : es.length = a.outs.length) (h1 : a'.tasks = a.tasks) (h2 : a'.outs.length = a.outs.length)
    (h3 : ∀ r ∈ a'.canceled, r < a.outs.length)
    (hes : ∀ (r : Nat) (o : Option (Option Val)), a'.outs[r]? = some o → es[r]? = some (entryOf a' r o)) :
    Inv q (storeTable { s with ents := es } p) a' := by
  subst hp
  refine ⟨?_, ?_, hes, ?_, ?_, ?_, ?_, ?_, ?_⟩
  · rw [h2]; exact h.gen
  · rw [h2]; exact hlen
  · rw [h1]; exact h.cidGen
  · rw [h1]; exact h.taskLen
  · rw [h1]; exact h.tasks
  · rw [h1, h2]; exact h.rids
  · rw [h2]; exact h3
  · rcases h.table with ⟨e, hc⟩ | ⟨b, blk, t1, t2, t3, t4, t5⟩
    · refine Or.inl ⟨?_, hc⟩
      rw [e] at h2
      exact List.length_eq_zero_iff.1 h2
    · rw [← h2] at t3 t4 t5
      exact Or.inr ⟨b, blk, t1, t2, t3, t4, t5⟩

theorem finish_ok {q : Nat} (hq : 0 < q) {s : RS} {a a' : Spec} (h : Inv q s a) (hb : a.outs.length < noResult) {k : Nat}
    {v : Option Val} (hs : specOp a (.finish k v) = some a') : ∃ s', resultSet s k v = .ok s' ∧ Inv q s' a' := by
  simp only [specOp] at hs
  unfold resultSet
  simp only
  split at hs
  · rename_i r hk
    split at hs
    · rename_i ho
      cases hs
      have hr : r < a.outs.length := h.rids r (List.mem_of_getElem? hk)
      have hne : r ≠ noResult := by omega
      rw [h.tasks k _ hk]
      simp only [Option.getD_some]
      have hen := h.ents r _ ho
      have hfw : finishWrite s r v s.cur = .ok { s with ents := s.ents.set r (finishEntry v (entryOf a r none)) } := by
        unfold finishWrite
        rw [if_neg hne, slot_ok hq h hr, Res.ok_bind]
        unfold updEntry
        rw [hen]
      rw [hfw, Res.ok_bind]
      refine ⟨_, rfl, inv_ents_update h rfl (by simp [h.entLen]) rfl (by simp) h.canc ?_⟩
      intro i o hi
      by_cases e : i = r
      · subst e
        simp only at hi
        rw [List.getElem?_set_self hr] at hi
        cases hi
        rw [List.getElem?_set_self (by rw [h.entLen]; exact hr)]
        cases v <;> simp [finishEntry, entryOf]
      · simp only at hi
        rw [List.getElem?_set_ne (fun e' => e e'.symm)] at hi
        rw [List.getElem?_set_ne (fun e' => e e'.symm)]
        exact h.ents i o hi
    · cases hs
  · rename_i hk
    cases hs
    rw [h.tasks k _ hk]
    refine ⟨storeTable s s.cur, ?_, ?_⟩
    · simp [finishWrite]
    · exact inv_ents_update (es := s.ents) h rfl h.entLen rfl rfl h.canc h.ents
  · cases hs

theorem cancel_ok {q : Nat} (hq : 0 < q) {s : RS} {a a' : Spec} (h : Inv q s a) (hb : a.outs.length < 2 ^ 31) {id : Nat}
    (hs : specOp a (.cancel id) = some a') : ∃ s', setCanceled s id = .ok s' ∧ Inv q s' a' := by
  simp only [specOp] at hs
  cases hs
  unfold setCanceled
  simp only
  rw [h.gen, Nat.mod_eq_of_lt (by omega)]
  by_cases hc : 0 < id ∧ id < a.outs.length
  · rw [if_pos ⟨hc.1, by omega, hc.2⟩, if_pos hc, slot_ok hq h hc.2, Res.ok_bind]
    obtain ⟨o, ho⟩ : ∃ o, a.outs[id]? = some o := ⟨_, List.getElem?_eq_getElem hc.2⟩
    unfold updEntry
    rw [h.ents id o ho]
    simp only [Res.ok_bind]
    refine ⟨_, rfl, inv_ents_update h rfl (by simp [h.entLen]) rfl rfl ?_ ?_⟩
    · intro r hr
      rcases List.mem_cons.1 hr with rfl | hr
      · exact hc.2
      · exact h.canc r hr
    · intro i o' hi
      simp only at hi
      by_cases e : i = id
      · subst e
        rw [hi] at ho
        cases ho
        rw [List.getElem?_set_self (by rw [h.entLen]; exact hc.2)]
        simp [entryOf]
      · rw [List.getElem?_set_ne (fun e' => e e'.symm), h.ents i o' hi]
        simp [entryOf, e]
  · rw [if_neg (fun hh => hc ⟨hh.1, hh.2.2⟩), if_neg hc]
    exact ⟨s, rfl, h⟩

theorem specOp_outs {a a' : Spec} {op : Op} (h : specOp a op = some a') : a.outs.length ≤ a'.outs.length := by
  cases op with
  | push b mv => cases b <;> (simp only [specOp, Option.some.injEq] at h; subst h; simp)
  | finish k v =>
    simp only [specOp] at h
    split at h
    · split at h
      · cases h; simp
      · cases h
    · cases h; simp
    · cases h
  | cancel id => simp only [specOp, Option.some.injEq] at h; subst h; simp

theorem specOps_outs (ops : List Op) : ∀ {a a' : Spec}, specOps a ops = some a' → a.outs.length ≤ a'.outs.length := by
  induction ops with
  | nil => intro a a' h; cases h; simp
  | cons op ops ih =>
    intro a a' h
    rw [specOps, Option.bind_eq_some_iff] at h
    obtain ⟨b, h1, h2⟩ := h
    exact (specOp_outs h1).trans (ih h2)

/-- The ids the pushes return according to the specification. -/
def idsOf (tasks : List (Option Nat)) : List (Bool × Nat) :=
  tasks.mapIdx (fun k o => match o with | some r => (true, r) | none => (false, (k + 1) % 2 ^ 32))

theorem idsOf_concat (l : List (Option Nat)) (o : Option Nat) :
    idsOf (l ++ [o]) = idsOf l ++ [match o with | some r => (true, r) | none => (false, (l.length + 1) % 2 ^ 32)] := by
  simp [idsOf, List.mapIdx_append]

theorem run_ok {q : Nat} (hq : 0 < q) (ops : List Op) : ∀ {s : RS} {a a' : Spec}, Inv q s a → specOps a ops = some a' →
    a'.outs.length < 2 ^ 31 → ∃ s', run q s (idsOf a.tasks) ops = .ok (s', idsOf a'.tasks) ∧ Inv q s' a' := by
  induction ops with
  | nil => intro s a a' h hs _; cases hs; exact ⟨s, rfl, h⟩
  | cons op ops ih =>
    intro s a a' h hs hb
    rw [specOps, Option.bind_eq_some_iff] at hs
    obtain ⟨b, h1, h2⟩ := hs
    have hmono := specOps_outs ops h2
    have hmono1 := specOp_outs h1
    have hno : (2 : Nat) ^ 31 < noResult := by unfold noResult; norm_num
    cases op with
    | push hr mv =>
      cases hr with
      | true =>
        simp only [specOp, Option.some.injEq] at h1
        subst h1
        simp only [List.length_append, List.length_singleton] at hmono
        obtain ⟨s1, e1, i1⟩ := push_result hq mv h (by omega)
        obtain ⟨s2, e2, i2⟩ := ih i1 h2 hb
        refine ⟨s2, ?_, i2⟩
        unfold run
        rw [e1, Res.ok_bind]
        rw [idsOf_concat] at e2
        exact e2
      | false =>
        simp only [specOp, Option.some.injEq] at h1
        subst h1
        obtain ⟨s1, e1, i1⟩ := push_plain mv h
        obtain ⟨s2, e2, i2⟩ := ih i1 h2 hb
        refine ⟨s2, ?_, i2⟩
        unfold run
        rw [e1, Res.ok_bind]
        rw [idsOf_concat] at e2
        exact e2
    | finish k v =>
      obtain ⟨s1, e1, i1⟩ := finish_ok hq h (by omega) h1
      obtain ⟨s2, e2, i2⟩ := ih i1 h2 hb
      have ht : b.tasks = a.tasks := by
        simp only [specOp] at h1
        split at h1
        · split at h1
          · cases h1; rfl
          · cases h1
        · cases h1; rfl
        · cases h1
      rw [ht] at e2
      refine ⟨s2, ?_, i2⟩
      unfold run
      rw [e1, Res.ok_bind]
      exact e2
    | cancel id =>
      obtain ⟨s1, e1, i1⟩ := cancel_ok hq h (by omega) h1
      obtain ⟨s2, e2, i2⟩ := ih i1 h2 hb
      have ht : b.tasks = a.tasks := by simp only [specOp, Option.some.injEq] at h1; subst h1; rfl
      rw [ht] at e2
      refine ⟨s2, ?_, i2⟩
      unfold run
      rw [e1, Res.ok_bind]
      exact e2

/-- The result numbers of the specification are handed out in order. -/
theorem spec_rids (ops : List Op) : ∀ {a a' : Spec}, a.tasks.filterMap id = List.range a.outs.length →
    specOps a ops = some a' → a'.tasks.filterMap id = List.range a'.outs.length := by
  induction ops with
  | nil => intro a a' h hs; cases hs; exact h
  | cons op ops ih =>
    intro a a' h hs
    rw [specOps, Option.bind_eq_some_iff] at hs
    obtain ⟨b, h1, h2⟩ := hs
    refine ih ?_ h2
    cases op with
    | push hr mv =>
      cases hr with
      | true =>
        simp only [specOp, Option.some.injEq] at h1
        subst h1
        simp only [List.filterMap_append, h, List.length_append, List.length_singleton, List.range_succ]
        rfl
      | false =>
        simp only [specOp, Option.some.injEq] at h1
        subst h1
        simp only [List.filterMap_append, h]
        simp
    | finish k v =>
      simp only [specOp] at h1
      split at h1
      · split at h1
        · cases h1; simpa using h
        · cases h1
      · cases h1; exact h
      · cases h1
    | cancel id => simp only [specOp, Option.some.injEq] at h1; subst h1; exact h

/-! ### C36 -/

/-- C36, ids.  On one thread, with fewer than 2^31 result tasks: no history is undefined, and the ids returned for
tasks with a result are 0, 1, 2, … in creation order — all different.  `_partial`: one thread only (see
`concurrent_create_ub`), and ids of tasks without a result are of another kind (see `plain_id_collides`). -/
theorem result_ids_unique_partial (q : Nat) (hq : 0 < q) (ops : List Op) (a : Spec) (hs : specOps Spec.init ops = some a)
    (hb : a.outs.length < 2 ^ 31) :
    ∃ s out, run q RS.init [] ops = .ok (s, out) ∧
      (out.filter (·.1)).map (·.2) = List.range a.outs.length ∧ ((out.filter (·.1)).map (·.2)).Nodup := by
  obtain ⟨s, e, _⟩ := run_ok hq ops (inv_init q) hs hb
  have key : ∀ l : List (Option Nat), ((idsOf l).filter (·.1)).map (·.2) = l.filterMap id := by
    intro l
    induction l using List.reverseRecOn with
    | nil => rfl
    | append_singleton l o ih =>
      rw [idsOf_concat, List.filter_append, List.map_append, ih, List.filterMap_append]
      cases o <;> simp
  have hr := spec_rids ops (a := Spec.init) rfl hs
  refine ⟨s, idsOf a.tasks, e, ?_, ?_⟩
  · rw [key, hr]
  · rw [key, hr]; exact List.nodup_range

/-- C36, results.  After any history on one thread, for every result id: `results_for` gives the value the task
returned once it has returned, however many tasks were created or finished since, and the empty value before;
`task_is_ready` and the loop of `await_for` say exactly whether it has returned. -/
theorem results_stable_partial (q : Nat) (hq : 0 < q) (ops : List Op) (a : Spec) (hs : specOps Spec.init ops = some a)
    (hb : a.outs.length < 2 ^ 31) (r : Nat) (o : Option (Option Val)) (ho : a.outs[r]? = some o) :
    ∃ s out, run q RS.init [] ops = .ok (s, out) ∧ resultsFor s r = .ok (o.getD none) ∧ isReady s r = .ok o.isSome ∧
      awaitFor s r = .ok o := by
  obtain ⟨s, e, h⟩ := run_ok hq ops (inv_init q) hs hb
  have hg := get_ok hq h ho
  have hf : resultsFor s r = .ok (o.getD none) := by
    unfold resultsFor
    rw [hg, Res.ok_bind]
    cases o with
    | none => rfl
    | some v => cases v <;> rfl
  refine ⟨s, idsOf a.tasks, e, hf, ?_, ?_⟩
  · unfold isReady
    rw [hg, Res.ok_bind]
    cases o with
    | none => rfl
    | some v => cases v <;> rfl
  · unfold awaitFor
    rw [hg, Res.ok_bind, hf]
    cases o with
    | none => rfl
    | some v => cases v <;> rfl

/-- What a task returned is never forgotten by the specification: the value of `results_stable_partial` is the
one given at the (only) return of the task. -/
theorem spec_result_final (ops : List Op) : ∀ {a a' : Spec} {r : Nat} {v : Option Val}, a.outs[r]? = some (some v) →
    specOps a ops = some a' → a'.outs[r]? = some (some v) := by
  induction ops with
  | nil => intro a a' r v h hs; cases hs; exact h
  | cons op ops ih =>
    intro a a' r v h hs
    rw [specOps, Option.bind_eq_some_iff] at hs
    obtain ⟨b, h1, h2⟩ := hs
    refine ih ?_ h2
    cases op with
    | push hr mv =>
      cases hr with
      | true =>
        simp only [specOp, Option.some.injEq] at h1
        subst h1
        rw [List.getElem?_append_left (List.getElem?_eq_some_iff.1 h).1]; exact h
      | false => simp only [specOp, Option.some.injEq] at h1; subst h1; exact h
    | finish k w =>
      simp only [specOp] at h1
      split at h1
      · rename_i r' hk
        split at h1
        · rename_i ho
          cases h1
          have : r' ≠ r := fun e => by subst e; rw [h] at ho; cases ho
          simp only
          rw [List.getElem?_set_ne this]; exact h
        · cases h1
      · cases h1; exact h
      · cases h1
    | cancel id => simp only [specOp, Option.some.injEq] at h1; subst h1; exact h

/-! ### C57 -/

/-- C57.  After any history on one thread, a task *with a result* is told it is cancelled exactly if
`task_set_canceled` was called with its id after its creation — except that id 0 is ignored.  `_partial`: tasks
without a result are told about somebody else (`plain_task_sees_other_cancel`) or read uninitialised memory
(`plain_task_cancel_ub`). -/
theorem cancel_only_that_id_partial (q : Nat) (hq : 0 < q) (ops : List Op) (a : Spec) (hs : specOps Spec.init ops = some a)
    (hb : a.outs.length < 2 ^ 31) (k r : Nat) (hk : a.tasks[k]? = some (some r)) :
    ∃ s out t, run q RS.init [] ops = .ok (s, out) ∧ s.tasks[k]? = some t ∧ taskId t = r ∧
      isCanceled s t = .ok (decide (r ∈ a.canceled)) := by
  obtain ⟨s, e, h⟩ := run_ok hq ops (inv_init q) hs hb
  have hr := h.rids r (List.mem_of_getElem? hk)
  have hid : taskId ⟨(k + 1) % 2 ^ 32, r⟩ = r := by
    unfold taskId
    rw [if_neg]
    simp only [noResult]
    omega
  obtain ⟨o, ho⟩ : ∃ o, a.outs[r]? = some o := ⟨_, List.getElem?_eq_getElem hr⟩
  refine ⟨s, idsOf a.tasks, _, e, h.tasks k _ hk, hid, ?_⟩
  unfold isCanceled
  simp only [Option.getD_some]
  rw [hid, get_ok hq h ho, Res.ok_bind]
  rfl

def notCancel : Op → Bool
  | .cancel _ => false
  | _ => true

/-- Cancelling also leaves every result alone: the values and states of all tasks are those of the history
without the cancellations. -/
theorem cancel_keeps_results (ops : List Op) : ∀ {a a' b : Spec}, a.outs = b.outs → a.tasks = b.tasks →
    specOps a ops = some a' → ∃ b', specOps b (ops.filter notCancel) = some b' ∧
      a'.outs = b'.outs ∧ a'.tasks = b'.tasks := by
  induction ops with
  | nil => intro a a' b h1 h2 hs; cases hs; exact ⟨b, rfl, h1, h2⟩
  | cons op ops ih =>
    intro a a' b h1 h2 hs
    rw [specOps, Option.bind_eq_some_iff] at hs
    obtain ⟨c, hc, hrest⟩ := hs
    cases op with
    | push hr mv =>
      cases hr with
      | true =>
        simp only [specOp, Option.some.injEq] at hc
        subst hc
        obtain ⟨b', e, r1, r2⟩ := ih (b := { b with tasks := b.tasks ++ [some b.outs.length], outs := b.outs ++ [none] })
          (by simp [h1]) (by simp [h1, h2]) hrest
        exact ⟨b', by simpa [List.filter_cons, specOps, specOp, notCancel] using e, r1, r2⟩
      | false =>
        simp only [specOp, Option.some.injEq] at hc
        subst hc
        obtain ⟨b', e, r1, r2⟩ := ih (b := { b with tasks := b.tasks ++ [none] }) (by exact h1) (by simp [h2]) hrest
        exact ⟨b', by simpa [List.filter_cons, specOps, specOp, notCancel] using e, r1, r2⟩
    | finish k v =>
      simp only [specOp] at hc
      split at hc
      · rename_i r hk
        split at hc
        · rename_i ho
          cases hc
          obtain ⟨b', e, r1, r2⟩ := ih (b := { b with outs := b.outs.set r (some v) }) (by simp [h1]) (by exact h2) hrest
          refine ⟨b', ?_, r1, r2⟩
          rw [h2] at hk
          rw [h1] at ho
          simp only [List.filter_cons, notCancel, if_true, specOps, specOp, hk, ho, Option.bind_some]
          exact e
        · cases hc
      · rename_i hk
        cases hc
        obtain ⟨b', e, r1, r2⟩ := ih h1 h2 hrest
        refine ⟨b', ?_, r1, r2⟩
        rw [h2] at hk
        simp only [List.filter_cons, notCancel, if_true, specOps, specOp, hk, Option.bind_some]
        exact e
      · cases hc
    | cancel id =>
      simp only [specOp, Option.some.injEq] at hc
      subst hc
      obtain ⟨b', e, r1, r2⟩ := ih (b := b) (by exact h1) (by exact h2) hrest
      exact ⟨b', by simpa [notCancel] using e, r1, r2⟩

/-! ### What is false of the code -/

/-- Ids are not unique over all tasks: a plain task gets an id counted separately, here 2, which is also the id
of the third result task. -/
theorem plain_id_collides (mv : Bool) : ∃ s, run 64 RS.init [] [.push true mv, .push false mv, .push true mv, .push true mv]
    = .ok (s, [(true, 0), (false, 2), (true, 1), (true, 2)]) := by
  cases mv <;> exact ⟨_, rfl⟩

/-- So `task_is_canceled` in the plain task reports the cancellation of the other one. -/
theorem plain_task_sees_other_cancel (mv : Bool) : ∃ s out, run 64 RS.init []
      [.push true mv, .push false mv, .push true mv, .push true mv, .cancel 2] = .ok (s, out) ∧
      s.tasks[1]? = some ⟨2, noResult⟩ ∧ isCanceled s ⟨2, noResult⟩ = .ok true := by
  cases mv <;> exact ⟨_, _, rfl, rfl, by decide +kernel⟩

/-- And with fewer result tasks it reads a table slot that was never written. -/
theorem plain_task_cancel_ub (mv : Bool) : ∃ s out, run 64 RS.init [] [.push true mv, .push false mv] = .ok (s, out) ∧
      s.tasks[1]? = some ⟨2, noResult⟩ ∧ isCanceled s ⟨2, noResult⟩ = .ub := by
  cases mv <;> exact ⟨_, _, rfl, rfl, by decide +kernel⟩

/-- The task with id 0 cannot be cancelled. -/
theorem cancel_zero_ignored (s : RS) : setCanceled s 0 = .ok s := by simp [setCanceled]

/-- Two threads creating tasks at the same time: thread 1 takes the id that needs a larger table (a
multiple of the queue size), thread 2 takes the next one, sees the old table and writes past its end. -/
theorem concurrent_create_ub : trun 4 (RS.init, fun _ => .idle)
    ([.create 0, .go 0, .go 0, .go 0, .go 0, .create 0, .go 0, .go 0, .go 0, .go 0, .create 0, .go 0, .go 0, .go 0, .go 0,
      .create 0, .go 0, .go 0, .go 0, .go 0] ++
     [.create 1, .create 2, .go 2, .go 2, .go 2]) = .ub := rfl

/-- A task returning while another thread enlarges the table: `tasks_result_set` stores the pointer it loaded
before, so the table pointer ends up on freed memory and the next access is undefined. -/
theorem concurrent_finish_ub : ∃ c, trun 4 (RS.init, fun _ => .idle)
    ([.create 0, .go 0, .go 0, .go 0, .go 0, .create 0, .go 0, .go 0, .go 0, .go 0, .create 0, .go 0, .go 0, .go 0, .go 0,
      .create 0, .go 0, .go 0, .go 0, .go 0] ++
     [.finish 1 0 (some 7), .go 1, .create 2, .go 2, .go 2, .go 2, .go 2, .go 1]) = .ok c ∧ resultsFor c.1 0 = .ub := by
  refine ⟨_, rfl, ?_⟩
  decide +kernel

/-! ### Instances -/

/-- A history through two enlargements of a table of step 2, with returns and a cancellation in between. -/
example : ∃ a, specOps Spec.init [.push true true, .push true true, .finish 0 (some 7), .push false false, .push true true, .cancel 1,
      .finish 1 none, .push true true, .push true true] = some a ∧
    a.outs = [some (some 7), some none, none, none, none] ∧ a.canceled = [1] ∧ a.outs.length < 2 ^ 31 := ⟨_, rfl, rfl, rfl, by decide⟩

example : ∃ s out, run 2 RS.init [] [.push true true, .push true true, .finish 0 (some 7), .push false false, .push true true, .cancel 1,
      .finish 1 none, .push true true, .push true true] = .ok (s, out) ∧ resultsFor s 0 = .ok (some 7) ∧ isReady s 0 = .ok true ∧
      awaitFor s 0 = .ok (some (some 7)) :=
  by
  refine results_stable_partial 2 (by decide) _
    ⟨[some 0, some 1, none, some 2, some 3, some 4], [some (some 7), some none, none, none, none], [1]⟩ rfl (by decide) 0 _ rfl

end Verif.Tasks
