import Verif.Fs.Model

/-! # Lemmas about the file model -/

namespace Verif.Fs

theorem look_lt {t : List (Option Open)} {fd : Nat} {o : Open} (h : look t fd = some o) : fd < t.length := by
  by_contra hn
  rw [look, List.getElem?_eq_none (by omega)] at h
  cases h

theorem look_put {t : List (Option Open)} {n : Nat} (o : Option Open) (h : n ≤ t.length) (m : Nat) :
    look (put t n o) m = if m = n then o else look t m := by
  induction t generalizing n m with
  | nil =>
    simp only [List.length_nil, Nat.le_zero] at h
    subst h
    cases m <;> simp [look, put]
  | cons a t ih =>
    cases n with
    | zero => cases m <;> simp [look, put]
    | succ n =>
      cases m with
      | zero => simp [look, put]
      | succ m =>
        have := @ih n (by simpa using h) m
        simpa [look, put] using this

theorem lowest_le (t : List (Option Open)) : lowest t ≤ t.length := by
  induction t with
  | nil => simp [lowest]
  | cons a t ih => cases a <;> simp [lowest, ih]

theorem look_lowest (t : List (Option Open)) : look t (lowest t) = none := by
  induction t with
  | nil => simp [look, lowest]
  | cons a t ih =>
    cases a with
    | none => simp [look, lowest]
    | some o => simpa [look, lowest] using ih

theorem lowest_lt_look {t : List (Option Open)} {n : Nat} (h : n < lowest t) : look t n ≠ none := by
  induction t generalizing n with
  | nil => simp [lowest] at h
  | cons a t ih =>
    cases a with
    | none => simp [lowest] at h
    | some o =>
      cases n with
      | zero => simp [look]
      | succ n => simpa [look] using ih (by simpa [lowest] using h)

/-- What a run of system calls leaves alone. -/
structure Frame (k k' : K) (F : Nat → Prop) (Q : Path → Prop) : Prop where
  tbl : ∀ fd, ¬ F fd → look k'.tbl fd = look k.tbl fd
  files : ∀ p, ¬ Q p → k'.files p = k.files p
  ans : ∃ n, k'.ans = k.ans.drop n

theorem Frame.rfl {k : K} {F Q} : Frame k k F Q := ⟨fun _ _ => Eq.refl _, fun _ _ => Eq.refl _, 0, Eq.refl _⟩

theorem Frame.trans {k k' k'' : K} {F Q} (h : Frame k k' F Q) (h' : Frame k' k'' F Q) : Frame k k'' F Q := by
  obtain ⟨n, hn⟩ := h.ans
  obtain ⟨m, hm⟩ := h'.ans
  exact ⟨fun fd hf => (h'.tbl fd hf).trans (h.tbl fd hf), fun p hp => (h'.files p hp).trans (h.files p hp),
    n + m, by rw [hm, hn, List.drop_drop]⟩

theorem Frame.mono {k k' : K} {F F' : Nat → Prop} {Q Q' : Path → Prop} (h : Frame k k' F Q) (hf : ∀ x, F x → F' x)
    (hq : ∀ x, Q x → Q' x) : Frame k k' F' Q' :=
  ⟨fun fd hn => h.tbl fd (fun hx => hn (hf _ hx)), fun p hn => h.files p (fun hx => hn (hq _ hx)), h.ans⟩

theorem Frame.len {k k' : K} {F Q} (h : Frame k k' F Q) : k'.ans.length ≤ k.ans.length := by
  obtain ⟨n, hn⟩ := h.ans
  rw [hn, List.length_drop]; omega

/-- Only complete and short answers. -/
def Calm (k : K) : Prop := ∀ a ∈ k.ans, a ≠ .intr ∧ a ≠ .fail

theorem Frame.calm {k k' : K} {F Q} (h : Frame k k' F Q) (c : Calm k) : Calm k' := by
  obtain ⟨n, hn⟩ := h.ans
  intro a ha
  rw [hn] at ha
  exact c a (List.mem_of_mem_drop ha)

theorem Calm.answer {k : K} (c : Calm k) : k.answer ≠ .intr ∧ k.answer ≠ .fail := by
  unfold K.answer
  cases h : k.ans with
  | nil => simp
  | cons a l => simpa using c a (by rw [h]; simp)

theorem pop_frame (k : K) {F Q} : Frame k k.pop F Q := ⟨fun _ _ => rfl, fun _ _ => rfl, 1, by simp [K.pop]⟩

theorem moved_le (a : Ans) (low n : Nat) : moved a low n ≤ n := by
  unfold moved
  cases a <;> simp <;> omega

theorem maxRw_pos : 0 < maxRw := by decide

theorem moved_pos (a : Ans) {n : Nat} (h : 0 < n) : 0 < moved a 1 n := by
  have := maxRw_pos
  unfold moved
  cases a <;> simp <;> omega

/-! ## Opening and closing -/

theorem kopen_spec {k : K} {p : Path} {creat excl trunc : Bool} {r : Option Nat} {k' : K}
    (h : kopen k p creat excl trunc = (r, k')) :
    (r = none ∧ k' = k.pop) ∨
    (r = some (lowest k.tbl) ∧ look k'.tbl (lowest k.tbl) = some ⟨p, 0⟩ ∧
      k'.files p = some (if trunc then [] else (k.files p).getD []) ∧ k'.files p ≠ none ∧
      (k.files p = none → creat = true) ∧ ((k.files p).isSome → ¬ (creat = true ∧ excl = true)) ∧
      Frame k k' (· = lowest k.tbl) (· = p)) := by
  have aux : ∀ (k1 : K), (∀ q, q ≠ p → k1.files q = k.files q) → k1.ans = k.ans.tail →
      Frame k { k1 with tbl := put k.tbl (lowest k.tbl) (some ⟨p, 0⟩) } (· = lowest k.tbl) (· = p) := by
    intro k1 hq ha
    refine ⟨fun fd hf => ?_, hq, 1, by simp [ha]⟩
    show look (put _ _ _) fd = _
    rw [look_put _ (lowest_le _), if_neg hf]
  unfold kopen at h
  have key : ∀ (r' : Option Nat × K), (match k.answer with
      | .intr | .fail => (none, k.pop)
      | _ => r') = (r, k') → (r = none ∧ k' = k.pop) ∨ r' = (r, k') := by
    intro r' hr
    cases hA : k.answer <;> rw [hA] at hr <;> simp only at hr
    · exact Or.inr hr
    · exact Or.inr hr
    · cases hr; exact Or.inl ⟨rfl, rfl⟩
    · cases hr; exact Or.inl ⟨rfl, rfl⟩
  rcases key _ h with h | h
  · exact Or.inl h
  · cases hf : k.files p with
    | none =>
      rw [hf] at h
      simp only at h
      split at h
      · rename_i hc
        cases h
        refine Or.inr ⟨rfl, ?_, ?_, ?_, fun _ => hc, by simp, aux _ ?_ rfl⟩
        · simp [look_put _ (lowest_le _)]
        · simp [K.setFile, K.pop]
        · simp [K.setFile, K.pop]
        · intro q hq; simp [K.setFile, K.pop, hq]
      · cases h; exact Or.inl ⟨rfl, rfl⟩
    | some c =>
      rw [hf] at h
      simp only at h
      split at h
      · cases h; exact Or.inl ⟨rfl, rfl⟩
      · rename_i hc
        cases h
        refine Or.inr ⟨rfl, ?_, ?_, ?_, by simp, ?_, aux _ ?_ ?_⟩
        · simp [look_put _ (lowest_le _)]
        · cases trunc <;> simp [K.setFile, K.pop, hf]
        · cases trunc <;> simp [K.setFile, K.pop, hf]
        · intro _; simpa using hc
        · intro q hq; cases trunc <;> simp [K.setFile, K.pop, hq]
        · cases trunc <;> simp [K.setFile, K.pop]

/-- A call answered normally opens what can be opened. -/
theorem kopen_calm {k : K} {p : Path} {creat excl trunc : Bool} (ha : k.answer ≠ .intr ∧ k.answer ≠ .fail)
    (hc : k.files p = none → creat = true) (he : (k.files p).isSome → ¬ (creat = true ∧ excl = true)) :
    (kopen k p creat excl trunc).1 = some (lowest k.tbl) := by
  have hb : (k.files p).isSome → (creat && excl) = false := fun h => by
    have := he h
    cases creat <;> cases excl <;> simp_all
  unfold kopen
  cases hA : k.answer with
  | intr => exact absurd hA ha.1
  | fail => exact absurd hA ha.2
  | full =>
    cases hf : k.files p with
    | none => simp [hc hf]
    | some c => simp [hb (by simp [hf])]
  | short n =>
    cases hf : k.files p with
    | none => simp [hc hf]
    | some c => simp [hb (by simp [hf])]

theorem kclose_frame (k : K) (fd : Nat) : Frame k (kclose k fd).2 (· = fd) (fun _ => False) := by
  unfold kclose
  cases h : look k.tbl fd with
  | none => exact pop_frame k
  | some o =>
    refine ⟨fun m hm => ?_, fun _ _ => rfl, 1, by simp [K.pop]⟩
    simp only
    rw [look_put _ (le_of_lt (look_lt h)), if_neg hm]

theorem kclose_closed (k : K) (fd : Nat) : look (kclose k fd).2.tbl fd = none := by
  unfold kclose
  cases h : look k.tbl fd with
  | none => exact h
  | some o => simp only; rw [look_put _ (le_of_lt (look_lt h)), if_pos rfl]

theorem kclose_calm {k : K} {fd : Nat} {o : Open} (h : look k.tbl fd = some o)
    (ha : k.answer ≠ .intr ∧ k.answer ≠ .fail) : (kclose k fd).1 = true := by
  unfold kclose
  rw [h]
  cases hA : k.answer <;> simp_all

/-! ## Writing at the end of a file -/

theorem overwrite_end (e d : Bytes) : overwrite e e.length d = e ++ d := by
  simp [overwrite]

theorem kwrite_end {k : K} {fd : Nat} {p : Path} {e : Bytes} (d : Bytes) (hl : look k.tbl fd = some ⟨p, e.length⟩)
    (hf : k.files p = some e) :
    (∃ m k', kwrite k fd d = (.got m, k') ∧ m ≤ d.length ∧ look k'.tbl fd = some ⟨p, (e ++ d.take m).length⟩ ∧
      k'.files p = some (e ++ d.take m) ∧ Frame k k' (· = fd) (· = p) ∧ k'.ans = k.ans.tail ∧
      (k.ans = [] → m = min d.length maxRw)) ∨
    (kwrite k fd d = (.intr, k.pop) ∧ k.answer = .intr) ∨ (kwrite k fd d = (.err, k.pop) ∧ k.answer = .fail) := by
  have got : ∀ a, (∀ b, k.answer = b → b = a) → ∃ m k', ((Io.got (moved a 0 d.length),
      ({ k.pop.setFile p (overwrite ((k.files p).getD []) e.length (d.take (moved a 0 d.length))) with
        tbl := put k.tbl fd (some ⟨p, e.length + moved a 0 d.length⟩) } : K)) : Io Nat × K) = (.got m, k') ∧
      m ≤ d.length ∧ look k'.tbl fd = some ⟨p, (e ++ d.take m).length⟩ ∧
      k'.files p = some (e ++ d.take m) ∧ Frame k k' (· = fd) (· = p) ∧ k'.ans = k.ans.tail ∧
      (k.ans = [] → m = min d.length maxRw) := by
    intro a hA
    refine ⟨_, _, rfl, moved_le _ _ _, ?_, ?_, ⟨fun m hm => ?_, fun q hq => ?_, 1, by simp [K.setFile, K.pop]⟩, rfl, ?_⟩
    · have := moved_le a 0 d.length
      simp only
      rw [look_put _ (le_of_lt (look_lt hl)), if_pos rfl, List.length_append, List.length_take, min_eq_left this]
    · simp [K.setFile, hf, overwrite_end]
    · simp only
      rw [look_put _ (le_of_lt (look_lt hl)), if_neg hm]
    · simp [K.setFile, K.pop, hq]
    · intro hnil
      have : a = .full := (hA _ rfl).symm.trans (by simp [K.answer, hnil])
      subst this
      rfl
  unfold kwrite
  rw [hl]
  simp only
  cases hA : k.answer with
  | full => exact Or.inl (got _ (fun b hb => by rw [← hb, hA]))
  | short n => exact Or.inl (got _ (fun b hb => by rw [← hb, hA]))
  | intr => exact Or.inr (Or.inl ⟨rfl, rfl⟩)
  | fail => exact Or.inr (Or.inr ⟨rfl, rfl⟩)

theorem writeLoop_spec (f : Nat) : ∀ (k : K) (fd : Nat) (p : Path) (e d : Bytes),
    look k.tbl fd = some ⟨p, e.length⟩ → k.files p = some e →
    (∀ b k', writeLoop f k fd d = some (b, k') → ∃ n, n ≤ d.length ∧ (b = true → n = d.length) ∧
      look k'.tbl fd = some ⟨p, (e ++ d.take n).length⟩ ∧ k'.files p = some (e ++ d.take n) ∧
      Frame k k' (· = fd) (· = p) ∧ (Calm k → b = true)) ∧
    (d.length + k.ans.length < f → writeLoop f k fd d ≠ none) := by
  induction f with
  | zero => intro k fd p e d _ _; exact ⟨fun b k' h => (by cases h), fun h => (by omega)⟩
  | succ f ih =>
    intro k fd p e d hl hf
    have hpop : look k.pop.tbl fd = some ⟨p, e.length⟩ := hl
    have hfp : k.pop.files p = some e := hf
    rcases kwrite_end d hl hf with ⟨m, k1, hw, hm, hl1, hf1, fr, ha, hfull⟩ | ⟨hw, hA⟩ | ⟨hw, hA⟩
    · constructor
      · intro b k' h
        simp only [writeLoop, hw] at h
        split at h
        · obtain ⟨n, hn, hb, h1, h2, h3, h4⟩ := (ih k1 fd p _ (d.drop m) hl1 hf1).1 b k' h
          have e1 : (e ++ d.take m) ++ (d.drop m).take n = e ++ d.take (m + n) := by
            rw [List.append_assoc, List.take_add]
          rw [e1] at h1 h2
          rw [List.length_drop] at hn
          refine ⟨m + n, by omega, fun hbt => ?_, h1, h2, fr.trans h3, fun c => h4 (fr.calm c)⟩
          have := hb hbt
          rw [List.length_drop] at this
          omega
        · cases h
          exact ⟨m, hm, fun _ => by omega, hl1, hf1, fr, fun _ => rfl⟩
      · intro hlt h
        simp only [writeLoop, hw] at h
        split at h
        · rename_i hpos
          refine (ih k1 fd p _ (d.drop m) hl1 hf1).2 ?_ h
          rw [List.length_drop, ha]
          cases hk : k.ans with
          | nil =>
            have := hfull hk
            have := maxRw_pos
            rw [hk] at hlt
            simp only [List.tail_nil, List.length_nil] at hlt ⊢
            omega
          | cons a l =>
            rw [hk] at hlt
            simp only [List.tail_cons, List.length_cons] at hlt ⊢
            omega
        · cases h
    · constructor
      · intro b k' h
        simp only [writeLoop, hw] at h
        obtain ⟨n, hn, hb, h1, h2, h3, h4⟩ := (ih k.pop fd p e d hpop hfp).1 b k' h
        exact ⟨n, hn, hb, h1, h2, (pop_frame k).trans h3, fun c => absurd hA c.answer.1⟩
      · intro hlt h
        simp only [writeLoop, hw] at h
        refine (ih k.pop fd p e d hpop hfp).2 ?_ h
        cases hk : k.ans with
        | nil => simp [K.answer, hk] at hA
        | cons a l =>
          rw [hk] at hlt
          simp only [K.pop, hk, List.tail_cons, List.length_cons] at hlt ⊢
          omega
    · constructor
      · intro b k' h
        simp only [writeLoop, hw] at h
        cases h
        exact ⟨0, by omega, (fun h => by cases h), by simpa using hpop, by simpa using hfp, pop_frame k,
          fun c => absurd hA c.answer.2⟩
      · intro _ h
        simp only [writeLoop, hw] at h
        cases h

/-! ## Reading -/

theorem kread_at {k : K} {fd : Nat} {p : Path} {i : Nat} {c : Bytes} (n : Nat) (hl : look k.tbl fd = some ⟨p, i⟩)
    (hf : k.files p = some c) :
    (∃ m k', kread k fd n = (.got ((c.drop i).take m), k') ∧ m ≤ min n (c.length - i) ∧
      (0 < min n (c.length - i) → 0 < m) ∧ look k'.tbl fd = some ⟨p, i + m⟩ ∧ Frame k k' (· = fd) (fun _ => False) ∧
      (k.ans = [] → m = min (min n (c.length - i)) maxRw)) ∨
    (kread k fd n = (.intr, k.pop) ∧ k.answer = .intr) ∨ (kread k fd n = (.err, k.pop) ∧ k.answer = .fail) := by
  have got : ∀ a, k.answer = a → ∃ m k', ((Io.got ((((k.files p).getD []).drop i).take
        (moved a 1 (min n (((k.files p).getD []).drop i).length))),
      ({ k.pop with tbl := put k.tbl fd (some ⟨p, i + moved a 1 (min n (((k.files p).getD []).drop i).length)⟩) } : K)) :
        Io Bytes × K) = (.got ((c.drop i).take m), k') ∧ m ≤ min n (c.length - i) ∧
      (0 < min n (c.length - i) → 0 < m) ∧ look k'.tbl fd = some ⟨p, i + m⟩ ∧ Frame k k' (· = fd) (fun _ => False) ∧
      (k.ans = [] → m = min (min n (c.length - i)) maxRw) := by
    intro a hA
    simp only [hf, Option.getD_some, List.length_drop]
    refine ⟨_, _, rfl, moved_le _ _ _, fun h => moved_pos _ h, ?_, ⟨fun m hm => ?_, fun q _ => rfl, 1, by simp [K.pop]⟩, ?_⟩
    · simp only
      rw [look_put _ (le_of_lt (look_lt hl)), if_pos rfl]
    · simp only
      rw [look_put _ (le_of_lt (look_lt hl)), if_neg hm]
    · intro hnil
      have : a = .full := hA.symm.trans (by simp [K.answer, hnil])
      subst this
      rfl
  unfold kread
  rw [hl]
  simp only
  cases hA : k.answer with
  | full => exact Or.inl (got _ hA)
  | short n => exact Or.inl (got _ hA)
  | intr => exact Or.inr (Or.inl ⟨rfl, rfl⟩)
  | fail => exact Or.inr (Or.inr ⟨rfl, rfl⟩)

theorem copyError_eq (k : K) (src dst : Nat) (p : Path → Prop) :
    ∃ k', copyError k src (some dst) = (-1, k') ∧ Frame k k' (fun fd => fd = src ∨ fd = dst) p ∧
      look k'.tbl src = none ∧ look k'.tbl dst = none := by
  have f1 := (kclose_frame k src).mono (F' := fun fd => fd = src ∨ fd = dst) (Q' := p) (fun _ h => Or.inl h) (fun _ h => h.elim)
  have f2 := (kclose_frame (kclose k src).2 dst).mono (F' := fun fd => fd = src ∨ fd = dst) (Q' := p) (fun _ h => Or.inr h)
    (fun _ h => h.elim)
  refine ⟨_, rfl, f1.trans f2, ?_, kclose_closed _ _⟩
  by_cases h : src = dst
  · subst h; exact kclose_closed _ _
  · rw [(kclose_frame (kclose k src).2 dst).tbl src h]; exact kclose_closed _ _

theorem copyLoop_spec (f : Nat) : ∀ (k : K) (src dst : Nat) (ps pd : Path) (c : Bytes) (i : Nat),
    src ≠ dst → ps ≠ pd → look k.tbl src = some ⟨ps, i⟩ → look k.tbl dst = some ⟨pd, i⟩ → k.files ps = some c →
    k.files pd = some (c.take i) → i ≤ c.length →
    (∀ r k', copyLoop f k src dst = some (r, k') →
      (r = 0 ∨ r = -1) ∧ (∃ n, i ≤ n ∧ n ≤ c.length ∧ k'.files pd = some (c.take n) ∧ (r = 0 → n = c.length)) ∧
      Frame k k' (fun fd => fd = src ∨ fd = dst) (· = pd) ∧ look k'.tbl src = none ∧ look k'.tbl dst = none ∧
      (Calm k → r = 0)) ∧
    (c.length - i < f → copyLoop f k src dst ≠ none) := by
  induction f with
  | zero => intro k src dst ps pd c i _ _ _ _ _ _ _; exact ⟨fun r k' h => (by cases h), fun h => (by omega)⟩
  | succ f ih =>
    intro k src dst ps pd c i hne hpp hs hd hfs hfd hi
    have err : ∀ k1, Frame k k1 (fun fd => fd = src ∨ fd = dst) (· = pd) →
        ∀ n, i ≤ n → n ≤ c.length → k1.files pd = some (c.take n) → ∀ r k', some (copyError k1 src (some dst)) = some (r, k') →
        (r = 0 ∨ r = -1) ∧ (∃ n, i ≤ n ∧ n ≤ c.length ∧ k'.files pd = some (c.take n) ∧ (r = 0 → n = c.length)) ∧
        Frame k k' (fun fd => fd = src ∨ fd = dst) (· = pd) ∧ look k'.tbl src = none ∧ look k'.tbl dst = none ∧ r = -1 := by
      intro k1 fr n h1 h2 hf1 r k' h
      obtain ⟨k2, he, fr2, g1, g2⟩ := copyError_eq k1 src dst (fun _ => False)
      rw [he] at h
      cases h
      refine ⟨Or.inr rfl, ⟨n, h1, h2, ?_, fun h => by cases h⟩, fr.trans (fr2.mono (fun _ h => h) (fun _ h => h.elim)), g1, g2, rfl⟩
      rw [fr2.files pd not_false]; exact hf1
    have errpop : (copyLoop (f + 1) k src dst = some (copyError k.pop src (some dst))) → (k.answer = .intr ∨ k.answer = .fail) →
        (∀ r k', copyLoop (f + 1) k src dst = some (r, k') →
          (r = 0 ∨ r = -1) ∧ (∃ n, i ≤ n ∧ n ≤ c.length ∧ k'.files pd = some (c.take n) ∧ (r = 0 → n = c.length)) ∧
          Frame k k' (fun fd => fd = src ∨ fd = dst) (· = pd) ∧ look k'.tbl src = none ∧ look k'.tbl dst = none ∧
          (Calm k → r = 0)) ∧ (c.length - i < f + 1 → copyLoop (f + 1) k src dst ≠ none) := by
      intro heq hA
      rw [heq]
      refine ⟨fun r k' h => ?_, fun _ h => by cases h⟩
      obtain ⟨a1, a2, a3, a4, a5, _⟩ := err k.pop (pop_frame k) i le_rfl hi hfd r k' h
      exact ⟨a1, a2, a3, a4, a5, fun cm => (hA.elim (fun e => absurd e cm.answer.1) (fun e => absurd e cm.answer.2))⟩
    rcases kread_at 4096 hs hfs with ⟨m, k1, hr, hm, hpos, hl1, fr1, _⟩ | ⟨hr, hA⟩ | ⟨hr, hA⟩
    · have hd1 : look k1.tbl dst = some ⟨pd, i⟩ := by rw [fr1.tbl dst (Ne.symm hne)]; exact hd
      have hfs1 : k1.files ps = some c := by rw [fr1.files ps not_false]; exact hfs
      have hfd1 : k1.files pd = some (c.take i) := by rw [fr1.files pd not_false]; exact hfd
      have fr1' : Frame k k1 (fun fd => fd = src ∨ fd = dst) (· = pd) := fr1.mono (fun _ h => Or.inl h) (fun _ h => h.elim)
      have hlen : ((c.drop i).take m).length = m := by rw [List.length_take, List.length_drop]; omega
      by_cases hm0 : m = 0
      · -- end of file
        have hend : i = c.length := by omega
        have e1 : copyLoop (f + 1) k src dst =
            (match kclose k1 dst with
            | (true, k') => some (0, (kclose k' src).2)
            | (false, k') => some (copyError k' src none)) := by
          rw [copyLoop, hr]
          simp only
          rw [if_pos (by rw [hlen]; exact hm0)]
          rfl
        have frd := (kclose_frame k1 dst).mono (F' := fun fd => fd = src ∨ fd = dst) (Q' := (· = pd)) (fun _ h => Or.inr h)
          (fun _ h => h.elim)
        have cd := kclose_closed k1 dst
        have fin : ∀ r, (r = (0 : Int) ∨ r = -1) → (Calm k → r = 0) →
            ((r = 0 ∨ r = -1) ∧ (∃ n, i ≤ n ∧ n ≤ c.length ∧ (kclose (kclose k1 dst).2 src).2.files pd = some (c.take n) ∧
              (r = 0 → n = c.length)) ∧
            Frame k (kclose (kclose k1 dst).2 src).2 (fun fd => fd = src ∨ fd = dst) (· = pd) ∧
            look (kclose (kclose k1 dst).2 src).2.tbl src = none ∧ look (kclose (kclose k1 dst).2 src).2.tbl dst = none ∧
            (Calm k → r = 0)) := by
          intro r hr0 hcalm
          have frs := (kclose_frame (kclose k1 dst).2 src)
          refine ⟨hr0, ⟨i, le_rfl, hi, ?_, fun _ => hend⟩, fr1'.trans (frd.trans (frs.mono (fun _ h => Or.inl h)
            (fun _ h => h.elim))), kclose_closed _ _, ?_, hcalm⟩
          · rw [frs.files pd not_false, (kclose_frame k1 dst).files pd not_false]; exact hfd1
          · rw [frs.tbl dst (Ne.symm hne)]; exact cd
        rw [e1]
        cases hk : kclose k1 dst with
        | mk b k2 =>
          have hk2 : k2 = (kclose k1 dst).2 := by rw [hk]
          cases b with
          | true =>
            refine ⟨fun r k' h => ?_, fun _ h => by cases h⟩
            simp only at h
            cases h
            rw [hk2]
            exact fin 0 (Or.inl rfl) (fun _ => rfl)
          | false =>
            refine ⟨fun r k' h => ?_, fun _ h => by cases h⟩
            simp only [copyError] at h
            cases h
            rw [hk2]
            refine fin (-1) (Or.inr rfl) (fun cm => ?_)
            have := kclose_calm hd1 (fr1.calm cm).answer
            rw [hk] at this
            cases this
      · have hlen' : (c.take i).length = i := by rw [List.length_take]; omega
        have ws := writeLoop_spec (((c.drop i).take m).length + k1.ans.length + 1) k1 dst pd (c.take i) ((c.drop i).take m)
          (by rw [hlen']; exact hd1) hfd1
        have e1 : copyLoop (f + 1) k src dst =
            (match writeLoop (((c.drop i).take m).length + k1.ans.length + 1) k1 dst ((c.drop i).take m) with
            | none => none
            | some (true, k') => copyLoop f k' src dst
            | some (false, k') => some (copyError k' src (some dst))) := by
          rw [copyLoop, hr]
          simp only
          rw [if_neg (by rw [hlen]; exact hm0)]
          rfl
        rw [e1]
        cases hw : writeLoop (((c.drop i).take m).length + k1.ans.length + 1) k1 dst ((c.drop i).take m) with
        | none => exact absurd hw (ws.2 (by omega))
        | some q =>
          obtain ⟨b, k2⟩ := q
          obtain ⟨n, hn, hb, h1, h2, h3, h4⟩ := ws.1 b k2 hw
          have e2 : c.take i ++ ((c.drop i).take m).take n = c.take (i + n) := by
            rw [List.take_take, min_eq_left (by rw [hlen] at hn; exact hn), ← List.take_add]
          have h3' : Frame k1 k2 (fun fd => fd = src ∨ fd = dst) (· = pd) := h3.mono (fun _ h => Or.inr h) (fun _ h => h)
          rw [hlen] at hn hb
          rw [e2] at h1 h2
          cases b with
          | true =>
            have hnm : n = m := hb rfl
            subst hnm
            have hs2 : look k2.tbl src = some ⟨ps, i + n⟩ := by rw [h3.tbl src hne]; exact hl1
            have hfs2 : k2.files ps = some c := by rw [h3.files ps hpp]; exact hfs1
            have hlt : (c.take (i + n)).length = i + n := by rw [List.length_take]; omega
            rw [hlt] at h1
            obtain ⟨g1, g2⟩ := ih k2 src dst ps pd c (i + n) hne hpp hs2 h1 hfs2 h2 (by omega)
            refine ⟨fun r k' h => ?_, fun hlt' h => g2 (by omega) h⟩
            obtain ⟨a1, ⟨n', b1, b2, b3, b4⟩, a3, a4, a5, a6⟩ := g1 r k' h
            exact ⟨a1, ⟨n', by omega, b2, b3, b4⟩, fr1'.trans (h3'.trans a3), a4, a5,
              fun cm => a6 (h3.calm (fr1.calm cm))⟩
          | false =>
            refine ⟨fun r k' h => ?_, fun _ h => by cases h⟩
            obtain ⟨a1, a2, a3, a4, a5, _⟩ := err k2 (fr1'.trans h3') (i + n) (by omega) (by omega) h2 r k' h
            exact ⟨a1, a2, a3, a4, a5, fun cm => absurd (h4 (fr1.calm cm)) (by decide)⟩
    · exact errpop (by simp only [copyLoop, hr]) (Or.inl hA)
    · exact errpop (by simp only [copyLoop, hr]) (Or.inr hA)

/-! ## `sendfile` -/

theorem ksendfile_at {k : K} {out inp : Nat} {ps pd : Path} {i off : Nat} {c e : Bytes}
    (ho : look k.tbl out = some ⟨pd, e.length⟩) (hi : look k.tbl inp = some ⟨ps, i⟩) (hfs : k.files ps = some c)
    (hfd : k.files pd = some e) :
    (∃ m k', ksendfile k out inp off = (.got m, k') ∧ m ≤ c.length - off ∧ (off < c.length → 0 < m) ∧
      look k'.tbl out = some ⟨pd, (e ++ (c.drop off).take m).length⟩ ∧ k'.files pd = some (e ++ (c.drop off).take m) ∧
      Frame k k' (· = out) (· = pd) ∧ k'.ans = k.ans.tail ∧ m = moved k.answer 1 (c.length - off)) ∨
    ((ksendfile k out inp off = (.intr, k.pop) ∨ ksendfile k out inp off = (.err, k.pop)) ∧
      (k.answer = .intr ∨ k.answer = .fail)) := by
  have got : ∀ a, k.answer = a → ∃ m k', ((Io.got (moved a 1 (((k.files ps).getD []).drop off).length),
      ({ k.pop.setFile pd (overwrite ((k.files pd).getD []) e.length ((((k.files ps).getD []).drop off).take
          (moved a 1 (((k.files ps).getD []).drop off).length))) with
        tbl := put k.tbl out (some ⟨pd, e.length + moved a 1 (((k.files ps).getD []).drop off).length⟩) } : K)) :
        Io Nat × K) = (.got m, k') ∧ m ≤ c.length - off ∧ (off < c.length → 0 < m) ∧
      look k'.tbl out = some ⟨pd, (e ++ (c.drop off).take m).length⟩ ∧ k'.files pd = some (e ++ (c.drop off).take m) ∧
      Frame k k' (· = out) (· = pd) ∧ k'.ans = k.ans.tail ∧ m = moved k.answer 1 (c.length - off) := by
    intro a hA
    simp only [hfs, hfd, Option.getD_some, List.length_drop]
    have hle := moved_le a 1 (c.length - off)
    refine ⟨_, _, rfl, hle, fun h => moved_pos _ (by omega), ?_, ?_,
      ⟨fun m hm => ?_, fun q hq => ?_, 1, by simp [K.setFile, K.pop]⟩, rfl, by rw [hA]⟩
    · simp only
      rw [look_put _ (le_of_lt (look_lt ho)), if_pos rfl, List.length_append, List.length_take, List.length_drop,
        min_eq_left hle]
    · simp [K.setFile, overwrite_end]
    · simp only
      rw [look_put _ (le_of_lt (look_lt ho)), if_neg hm]
    · simp [K.setFile, K.pop, hq]
  unfold ksendfile
  rw [ho, hi]
  simp only
  cases hA : k.answer with
  | full => have := got _ hA; rw [hA] at this; exact Or.inl this
  | short n => have := got _ hA; rw [hA] at this; exact Or.inl this
  | intr => exact Or.inr ⟨Or.inl rfl, Or.inl rfl⟩
  | fail => exact Or.inr ⟨Or.inr rfl, Or.inr rfl⟩

/-- `copied` is twice what was written; only a first transfer of everything makes a full copy. -/
theorem sendLoop_spec (f : Nat) : ∀ (k : K) (out inp : Nat) (ps pd : Path) (i : Nat) (c e : Bytes),
    out ≠ inp → ps ≠ pd → look k.tbl out = some ⟨pd, e.length⟩ → look k.tbl inp = some ⟨ps, i⟩ → k.files ps = some c →
    k.files pd = some e →
    (∀ r k', sendLoop f k out inp c.length (2 * e.length) = some (r, k') →
      (∃ e', k'.files pd = some e' ∧ e.length ≤ e'.length ∧ (c.length ≤ 2 * e.length → e' = e) ∧
        (0 < e.length → e.length < c.length → e'.length < c.length) ∧ (r = true → c.length ≤ 2 * e'.length)) ∧
      Frame k k' (· = out) (· = pd) ∧ (Calm k → r = true)) ∧
    (c.length - 2 * e.length < f → sendLoop f k out inp c.length (2 * e.length) ≠ none) := by
  induction f with
  | zero => intro k out inp ps pd i c e _ _ _ _ _ _; exact ⟨fun r k' h => (by cases h), fun h => (by omega)⟩
  | succ f ih =>
    intro k out inp ps pd i c e hne hpp ho hi hfs hfd
    by_cases hc : 2 * e.length < c.length
    · rcases ksendfile_at (off := 2 * e.length) ho hi hfs hfd with ⟨m, k1, hs, hm, hpos, hl, hf1, fr, _, _⟩ | ⟨hs, hA⟩
      · have e1 : sendLoop (f + 1) k out inp c.length (2 * e.length) =
            sendLoop f k1 out inp c.length (2 * (e ++ (c.drop (2 * e.length)).take m).length) := by
          have : 2 * (e ++ (c.drop (2 * e.length)).take m).length = 2 * e.length + m + m := by
            rw [List.length_append, List.length_take, List.length_drop]; omega
          rw [this]
          simp only [sendLoop, if_pos hc, hs]
        have hlen : (e ++ (c.drop (2 * e.length)).take m).length = e.length + m := by
          rw [List.length_append, List.length_take, List.length_drop]; omega
        obtain ⟨g1, g2⟩ := ih k1 out inp ps pd i c _ hne hpp hl (by rw [fr.tbl inp (Ne.symm hne)]; exact hi)
          (by rw [fr.files ps hpp]; exact hfs) hf1
        rw [e1]
        have hp := hpos hc
        refine ⟨fun r k' h => ?_, fun hlt h => g2 (by omega) h⟩
        obtain ⟨⟨e', a1, a2, a3, a4, a5⟩, b, d⟩ := g1 r k' h
        refine ⟨⟨e', a1, by omega, fun _ => by omega, fun h0 _ => ?_, a5⟩, fr.trans b, fun cm => d (fr.calm cm)⟩
        by_cases hx : c.length ≤ 2 * (e ++ (c.drop (2 * e.length)).take m).length
        · rw [a3 hx, hlen]; omega
        · exact a4 (by omega) (by omega)
      · have e1 : sendLoop (f + 1) k out inp c.length (2 * e.length) = some (false, k.pop) := by
          rcases hs with hs | hs <;> simp only [sendLoop, if_pos hc, hs]
        rw [e1]
        refine ⟨fun r k' h => ?_, fun _ h => by cases h⟩
        cases h
        exact ⟨⟨e, hfd, le_rfl, fun _ => rfl, fun _ h => h, fun h => by cases h⟩, pop_frame k,
          fun cm => (hA.elim (fun e => absurd e cm.answer.1) (fun e => absurd e cm.answer.2))⟩
    · have e1 : sendLoop (f + 1) k out inp c.length (2 * e.length) = some (true, k) := by
        simp only [sendLoop, if_neg hc]
      rw [e1]
      refine ⟨fun r k' h => ?_, fun _ h => by cases h⟩
      cases h
      exact ⟨⟨e, hfd, le_rfl, fun _ => rfl, fun _ h => h, fun _ => by omega⟩, Frame.rfl, fun _ => rfl⟩

end Verif.Fs
