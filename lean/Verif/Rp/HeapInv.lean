import Verif.Rp.Heap

/-!
# Every operation on the blocks keeps the invariant
-/

namespace Verif.Rp

/-- `takeBlocks`: one block is handed out, the rest goes to the free list of the bin; together they are what was in the free
list of the span or was set up now. -/
theorem takeBlocks_spec (c : Cfg) (s : Nat) (sp : Span) (hl : sp.limit ≤ c.count sp.bin) (hf : isFull c sp = false) :
    (takeBlocks c s sp).2.2.act = sp.act ∧ (takeBlocks c s sp).2.2.bin = sp.bin ∧ (takeBlocks c s sp).2.2.dfl = sp.dfl ∧
    (takeBlocks c s sp).2.2.lsize = sp.lsize ∧ (takeBlocks c s sp).2.2.fl = [] ∧
    (takeBlocks c s sp).2.2.used = (takeBlocks c s sp).2.2.limit ∧
    sp.limit ≤ (takeBlocks c s sp).2.2.limit ∧ (takeBlocks c s sp).2.2.limit ≤ c.count sp.bin ∧
    ∀ i, (if i = (takeBlocks c s sp).1 then 1 else 0) + (takeBlocks c s sp).2.1.count i + below i sp.limit =
      sp.fl.count i + below i (takeBlocks c s sp).2.2.limit := by
  unfold takeBlocks
  cases hfl : sp.fl with
  | cons x xs =>
    dsimp only
    refine ⟨rfl, rfl, rfl, rfl, rfl, rfl, Nat.le_refl _, hl, fun i => ?_⟩
    rw [List.count_cons]
    by_cases h : i = x
    · subst h; simp only [beq_self_eq_true]; omega
    · have h' : ¬ x = i := fun e => h e.symm
      simp only [h, beq_iff_eq, h', if_false]
      omega
  | nil =>
    have hlt : sp.limit < c.count sp.bin := by
      unfold isFull at hf
      rw [hfl] at hf
      simpa using hf
    have hb := partialInit_bounds c.k (addr c s sp.limit (c.size sp.bin) / 2 ^ c.k * 2 ^ c.k) (addr c s sp.limit (c.size sp.bin))
      (c.count sp.bin - sp.limit) (c.size sp.bin) (by omega)
    dsimp only
    generalize partialInit c.k (addr c s sp.limit (c.size sp.bin) / 2 ^ c.k * 2 ^ c.k) (addr c s sp.limit (c.size sp.bin))
      (c.count sp.bin - sp.limit) (c.size sp.bin) = n at hb ⊢
    refine ⟨rfl, rfl, rfl, rfl, rfl, rfl, by omega, by omega, fun i => ?_⟩
    rw [count_range', List.count_nil]
    unfold below
    split <;> split <;> split <;> split <;> omega

/-- `settle`: the deferred blocks become the free list of the span. -/
theorem settle_spec (sp : Span) (hfl : sp.fl = []) (hu : sp.used = sp.limit) (hs : sp.lsize = sp.dfl.length)
    (hle : sp.dfl.length ≤ sp.limit) :
    ∃ sp', settle sp = some sp' ∧ sp'.act = sp.act ∧ sp'.bin = sp.bin ∧ sp'.limit = sp.limit ∧ sp'.dfl = [] ∧ sp'.lsize = 0 ∧
      sp'.fl = sp.dfl ∧ sp'.used + sp'.fl.length = sp'.limit := by
  unfold settle
  by_cases h : sp.dfl = []
  · rw [if_neg (by simpa using h)]
    refine ⟨sp, rfl, rfl, rfl, rfl, h, ?_, by rw [hfl, h], ?_⟩
    · rw [hs, h]; rfl
    · rw [hfl, hu]; rfl
  · rw [if_pos h]
    unfold extract
    rw [if_neg (by omega)]
    refine ⟨_, rfl, rfl, rfl, rfl, rfl, rfl, rfl, ?_⟩
    dsimp only
    omega

section
variable {c : Cfg} {st : St} {held : List Held}

theorem hc_cons (x : Held) (held : List Held) (s i : Nat) :
    hc (x :: held) s i = hc held s i + if x.s = s ∧ x.i = i then 1 else 0 := by
  unfold hc
  rw [List.countP_cons]
  simp only [decide_eq_true_eq]

theorem hc_pos {x : Held} (h : x ∈ held) : 0 < hc held x.s x.i :=
  List.countP_pos_iff.mpr ⟨x, h, by simp⟩

theorem hc_filter (held : List Held) (s i s' i' : Nat) :
    hc (held.filter fun x => ¬ (x.s = s ∧ x.i = i)) s' i' = if s' = s ∧ i' = i then 0 else hc held s' i' := by
  unfold hc
  rw [List.countP_filter]
  split
  · rename_i h
    rw [List.countP_eq_zero]
    intro x _
    simp only [Bool.and_eq_true, decide_eq_true_eq, not_and]
    intro h1 h2
    exact h2 (h1.1.trans h.1) (h1.2.trans h.2)
  · rename_i h
    refine List.countP_congr fun x _ => ?_
    simp only [Bool.and_eq_true, decide_eq_true_eq, and_iff_left_iff_imp]
    rintro ⟨h1, h2⟩ ⟨h3, h4⟩
    exact h ⟨h1.symm.trans h3, h2.symm.trans h4⟩

/-- The blocks of the free list and of the deferred list of a span in use are distinct and were set up. -/
theorem Inv.lists (I : Inv c st held) {s : Nat} (ha : (st.span s).act = true) :
    ((st.span s).fl ++ (st.span s).dfl).length ≤ (st.span s).limit ∧
    (((st.span s).fl ++ (st.span s).dfl).length = (st.span s).limit → ∀ i, hc held s i = 0 ∧
      (st.free (st.span s).bin).count (s, i) = 0) := by
  have hb := I.blocks s ha
  have key : ∀ i, ((st.span s).fl ++ (st.span s).dfl).count i ≤ if i < (st.span s).limit then 1 else 0 := fun i => by
    rw [List.count_append]
    have := hb i
    unfold below at this
    omega
  refine ⟨(pigeon key).1, fun he i => ?_⟩
  have h1 := (pigeon key).2 he i
  rw [List.count_append] at h1
  have h2 := hb i
  unfold below at h2
  omega

/-- A span which is deferred as a whole has no block in use, is full, and all its blocks were set up. -/
theorem Inv.all_deferred (hc' : ∀ b, 0 < c.count b) (I : Inv c st held) {s : Nat} (ha : (st.span s).act = true)
    (hl : (st.span s).lsize = c.count (st.span s).bin) :
    (∀ i, hc held s i = 0 ∧ (st.free (st.span s).bin).count (s, i) = 0) ∧ isFull c (st.span s) = true := by
  obtain ⟨h1, h2, h3⟩ := I.lim s ha
  obtain ⟨h4, h5⟩ := I.lists ha
  rw [List.length_append] at h4 h5
  have hfl : (st.span s).fl = [] := List.length_eq_zero_iff.mp (by omega)
  refine ⟨h5 (by omega), ?_⟩
  unfold isFull
  rw [hfl]
  have := hc' (st.span s).bin
  simp only [List.isEmpty_nil, Bool.true_and, decide_eq_true_eq]
  rw [hfl, List.length_nil] at h4
  omega

/-- A span with a held block is not deferred as a whole. -/
theorem Inv.not_deferred (hc' : ∀ b, 0 < c.count b) (I : Inv c st held) {x : Held} (hx : x ∈ held) :
    (st.span x.s).lsize ≠ c.count (st.span x.s).bin := fun h => by
  have h1 := hc_pos hx
  have h2 := ((I.all_deferred hc' (I.heldOk x hx).1 h).1 x.i).1
  omega

/-- Without any block held or in the free list of the bin, elsewhere. -/
theorem Inv.not_act (I : Inv c st held) {s : Nat} (ha : (st.span s).act = false) :
    (∀ i, hc held s i = 0) ∧ ∀ b i, (st.free b).count (s, i) = 0 := by
  refine ⟨fun i => ?_, fun b i => ?_⟩
  · unfold hc
    rw [List.countP_eq_zero]
    intro x hx h
    simp only [decide_eq_true_eq] at h
    have := (I.heldOk x hx).1
    rw [h.1, ha] at this
    exact Bool.noConfusion this
  · refine List.count_eq_zero_of_not_mem fun hm => ?_
    have := (I.freeOk b _ hm).1
    rw [ha] at this
    exact Bool.noConfusion this

/-! ## Asking for a block -/

/-- From the free list of the bin. -/
theorem malloc_pop (I : Inv c st held) {b : Nat} {x : Nat × Nat} {xs : List (Nat × Nat)} (h : st.free b = x :: xs) :
    Inv c { st with free := upd st.free b xs } (⟨x.1, x.2, b⟩ :: held) := by
  obtain ⟨ha, hb⟩ := I.freeOk b x (by rw [h]; exact List.mem_cons_self ..)
  refine ⟨I.mnd, I.cnd, I.cacheOk, I.actm, I.lim, I.part, fun s hs i => ?_, fun y hy => ?_, fun b' y hy => ?_, I.sfd, I.full⟩
  · have h1 := I.blocks s hs i
    dsimp only
    rw [hc_cons]
    dsimp only
    by_cases hbb : (st.span s).bin = b
    · rw [hbb, upd_same]
      rw [hbb, h, List.count_cons] at h1
      obtain ⟨x1, x2⟩ := x
      dsimp only at *
      by_cases hx : x1 = s ∧ x2 = i
      · rw [if_pos hx]
        rw [if_pos (by simp [hx.1, hx.2])] at h1
        omega
      · rw [if_neg hx]
        rw [if_neg (by simpa using hx)] at h1
        omega
    · rw [upd_ne _ _ hbb]
      have : ¬ (x.1 = s ∧ x.2 = i) := fun hx => by
        rw [hx.1] at hb
        exact hbb hb
      rw [if_neg this]
      omega
  · rcases List.mem_cons.mp hy with rfl | hy
    · exact ⟨ha, hb⟩
    · exact I.heldOk y hy
  · dsimp only at hy
    by_cases hbb : b' = b
    · subst hbb
      rw [upd_same] at hy
      exact I.freeOk b' y (by rw [h]; exact List.mem_cons_of_mem _ hy)
    · rw [upd_ne _ _ hbb] at hy
      exact I.freeOk b' y hy

/-- Changing one span, the free list of its bin, its list and the counter of its heap: what has to be checked. -/
theorem Inv.change (hc' : ∀ b, 0 < c.count b) (I : Inv c st held) {b s : Nat} {sp : Span} {fr : List Nat} {pt : List Nat} {fu : Nat}
    {x : Nat} (hm : s ∈ st.mapped) (hncache : s ∉ st.cache) (hbin : sp.bin = b) (hact : sp.act = true)
    (hold : (st.span s).act = true → (st.span s).bin = b) (hsfd : ∀ h, s ∉ st.sfd h) (hls : sp.lsize = 0)
    (hdfl : sp.dfl = []) (hlim : sp.limit ≤ c.count b ∧ sp.used + sp.fl.length = sp.limit)
    (hfree : st.free b = [])
    (hpt : pt.Nodup ∧ ∀ t, t ∈ pt ↔ (t = s ∧ isFull c sp = false) ∨ (t ≠ s ∧ t ∈ st.part b))
    (hfu : fu + (if fullOf c st (c.heap b) s then 1 else 0) = st.full (c.heap b) + (if isFull c sp then 1 else 0))
    (hblocks : ∀ i, hc held s i + (if i = x then 1 else 0) + fr.count i + sp.fl.count i = below i sp.limit) :
    Inv c { st with span := upd st.span s sp, free := upd st.free b (fr.map fun i => (s, i)), part := upd st.part b pt,
                    full := upd st.full (c.heap b) fu } (⟨s, x, b⟩ :: held) := by
  have hne : ∀ {t}, t ≠ s → (upd st.span s sp) t = st.span t := fun ht => upd_ne _ _ ht
  refine ⟨I.mnd, I.cnd, fun t ht => ?_, fun t ht => ?_, fun t ht => ?_, fun b' => ?_, fun t ht i => ?_, fun y hy => ?_,
    fun b' y hy => ?_, fun h => ?_, fun h => ?_⟩
  · dsimp only at ht ⊢
    have : t ≠ s := fun e => hncache (e ▸ ht)
    rw [hne this]; exact I.cacheOk t ht
  · dsimp only at ht ⊢
    by_cases e : t = s
    · rw [e]; exact hm
    · rw [hne e] at ht; exact I.actm t ht
  · dsimp only at ht ⊢
    by_cases e : t = s
    · subst e
      rw [upd_same, hbin, hls, hdfl]
      exact ⟨hlim.1, hlim.2, rfl⟩
    · rw [hne e] at ht ⊢; exact I.lim t ht
  · dsimp only
    by_cases e : b' = b
    · subst e
      rw [upd_same]
      refine ⟨hpt.1, fun t => ?_⟩
      rw [hpt.2]
      by_cases e2 : t = s
      · subst e2
        rw [upd_same]
        simp only [true_and, ne_eq, not_true_eq_false, false_and, or_false, hact, hbin]
      · rw [hne e2]
        simp only [e2, false_and, ne_eq, not_false_eq_true, true_and, false_or]
        exact (I.part b').2 t
    · rw [upd_ne _ _ e]
      refine ⟨(I.part b').1, fun t => ?_⟩
      rw [(I.part b').2]
      by_cases e2 : t = s
      · subst e2
        rw [upd_same]
        constructor
        · rintro ⟨h1, h2, _⟩
          exact absurd (h2.symm.trans (hold h1)) e
        · rintro ⟨_, h2, _⟩
          exact absurd (h2.symm.trans hbin) e
      · rw [hne e2]
  · dsimp only at ht ⊢
    rw [hc_cons]
    dsimp only
    by_cases e : t = s
    · subst e
      rw [upd_same, hbin, upd_same, hdfl, count_map_pair, List.count_nil]
      have := hblocks i
      simp only [true_and]
      by_cases e3 : x = i
      · subst e3
        rw [if_pos rfl] at this ⊢
        omega
      · rw [if_neg e3]
        rw [if_neg (fun h => e3 h.symm)] at this
        omega
    · rw [hne e] at ht ⊢
      have h1 := I.blocks t ht i
      rw [if_neg (fun h => e h.1.symm)]
      by_cases e2 : (st.span t).bin = b
      · rw [e2, upd_same, count_map_pair_ne e]
        rw [e2, hfree, List.count_nil] at h1
        omega
      · rw [upd_ne _ _ e2]; omega
  · dsimp only
    rcases List.mem_cons.mp hy with rfl | hy
    · dsimp only; rw [upd_same]; exact ⟨hact, hbin⟩
    · obtain ⟨h1, h2⟩ := I.heldOk y hy
      by_cases e : y.s = s
      · rw [e] at h1 h2
        rw [e, upd_same]
        exact ⟨hact, by rw [hbin, ← h2]; exact (hold h1).symm⟩
      · rw [hne e]; exact ⟨h1, h2⟩
  · dsimp only at hy ⊢
    by_cases e : b' = b
    · subst e
      rw [upd_same, List.mem_map] at hy
      obtain ⟨i, _, rfl⟩ := hy
      dsimp only
      rw [upd_same]
      exact ⟨hact, hbin⟩
    · rw [upd_ne _ _ e] at hy
      obtain ⟨h1, h2⟩ := I.freeOk b' y hy
      by_cases e2 : y.1 = s
      · rw [e2] at h1 h2
        exact absurd (h2.symm.trans (hold h1)) e
      · rw [hne e2]; exact ⟨h1, h2⟩
  · dsimp only
    refine ⟨(I.sfd h).1, fun t => ?_⟩
    by_cases e : t = s
    · subst e
      rw [upd_same, hls, hbin]
      constructor
      · intro h1; exact absurd h1 (hsfd h)
      · rintro ⟨_, _, h3⟩
        have := hc' b
        omega
    · rw [hne e]; exact (I.sfd h).2 t
  · show upd st.full (c.heap b) fu h = st.mapped.countP (fullOf c _ h)
    generalize hst : ({ st with span := upd st.span s sp, free := upd st.free b (fr.map fun i => (s, i)),
                                part := upd st.part b pt, full := upd st.full (c.heap b) fu } : St) = st'
    have hsp : st'.span = upd st.span s sp := by rw [← hst]
    have hch := countP_change I.mnd hm (p := fullOf c st h)
      (q := fullOf c st' h) (fun t ht => by
        unfold fullOf; rw [hsp, hne ht])
    have hq : fullOf c st' h s = (decide (c.heap b = h) && isFull c sp) := by
      unfold fullOf; rw [hsp, upd_same, hact, hbin, Bool.true_and]
    rw [hq, ← I.full h] at hch
    by_cases e : h = c.heap b
    · subst e
      rw [upd_same]
      simp only [decide_true, Bool.true_and] at hch
      omega
    · rw [upd_ne _ _ e]
      have h1 : fullOf c st h s = false := by
        unfold fullOf
        cases ha : (st.span s).act with
        | false => rfl
        | true =>
          rw [hold ha]
          have : decide (c.heap b = h) = false := decide_eq_false fun e' => e e'.symm
          rw [this]; rfl
      have h2 : decide (c.heap b = h) = false := decide_eq_false fun e' => e e'.symm
      rw [h1, h2] at hch
      simpa using hch.symm

theorem upd_self {α : Type} (f : Nat → α) (s : Nat) : upd f s (f s) = f := by
  funext x
  unfold upd
  split
  · rename_i h; rw [h]
  · rfl

theorem upd_upd {α : Type} (f : Nat → α) (s : Nat) (v w : α) : upd (upd f s v) s w = upd f s w := by
  funext x
  unfold upd
  split <;> rfl

/-- From a partially used span. -/
theorem malloc_part (hc' : ∀ b, 0 < c.count b) (I : Inv c st held) {b s : Nat} {rest : List Nat} (hf : st.free b = [])
    (hp : st.part b = s :: rest) (p : Pick) :
    ∃ st' x, malloc c st b p = some (st', some (s, x)) ∧ Inv c st' (⟨s, x, b⟩ :: held) := by
  obtain ⟨hpn, hpm⟩ := I.part b
  obtain ⟨ha, hb, hnf⟩ := (hpm s).mp (by rw [hp]; exact List.mem_cons_self ..)
  obtain ⟨hl1, hl2, hl3⟩ := I.lim s ha
  obtain ⟨hls1, _⟩ := I.lists ha
  rw [List.length_append] at hls1
  have hbk := I.blocks s ha
  obtain ⟨t1, t2, t3, t4, t5, t6, t7, t8, t9⟩ := takeBlocks_spec c s (st.span s) hl1 hnf
  unfold malloc
  rw [hf, hp]
  dsimp only
  generalize takeBlocks c s (st.span s) = t at *
  obtain ⟨x, fr, sp⟩ := t
  dsimp only at *
  obtain ⟨sp', e1, e2, e3, e4, e5, e6, e7, e8⟩ := settle_spec sp t5 t6 (by rw [t4, t3]; exact hl3) (by rw [t3]; omega)
  rw [e1]
  dsimp only
  have hnfull : fullOf c st (c.heap b) s = false := by
    unfold fullOf; rw [hnf, Bool.and_false]
  have hns : ∀ h, s ∉ st.sfd h := fun h hm => by
    have := ((I.sfd h).2 s).mp hm
    have h2 := (I.all_deferred hc' ha this.2.2).2
    rw [hnf] at h2
    exact Bool.noConfusion h2
  have hnc : s ∉ st.cache := fun hm => by
    have := (I.cacheOk s hm).2
    rw [ha] at this
    exact Bool.noConfusion this
  have hblk : ∀ i, hc held s i + (if i = x then 1 else 0) + fr.count i + sp'.fl.count i = below i sp'.limit := fun i => by
    have h1 := hbk i
    have h2 := t9 i
    rw [hb, hf, List.count_nil] at h1
    rw [e7, e4, t3]
    omega
  have key : ∀ pt fu, (pt.Nodup ∧ ∀ t, t ∈ pt ↔ (t = s ∧ isFull c sp' = false) ∨ (t ≠ s ∧ t ∈ st.part b)) →
      (fu + (if fullOf c st (c.heap b) s then 1 else 0) = st.full (c.heap b) + (if isFull c sp' then 1 else 0)) →
      Inv c { st with span := upd st.span s sp', free := upd st.free b (fr.map fun i => (s, i)), part := upd st.part b pt,
                      full := upd st.full (c.heap b) fu } (⟨s, x, b⟩ :: held) := fun pt fu h1 h2 =>
    I.change hc' (I.actm s ha) hnc (by rw [e3, t2, hb]) (by rw [e2, t1, ha]) (fun _ => hb) hns e6 e5
      ⟨by rw [e4, ← hb]; exact t8, e8⟩ hf h1 h2 hblk
  rw [hp] at hpn hpm
  have hsr : s ∉ rest := (List.nodup_cons.mp hpn).1
  cases hfull : isFull c sp' with
  | true =>
    rw [if_pos rfl]
    refine ⟨_, x, rfl, key rest _ ⟨(List.nodup_cons.mp hpn).2, fun t => ?_⟩ ?_⟩
    · rw [hp, hfull]
      constructor
      · intro h
        exact Or.inr ⟨fun e => hsr (e ▸ h), List.mem_cons_of_mem _ h⟩
      · rintro (⟨_, h⟩ | ⟨h1, h2⟩)
        · exact Bool.noConfusion h
        · rcases List.mem_cons.mp h2 with h | h
          · exact absurd h h1
          · exact h
    · rw [hnfull, hfull]; rfl
  | false =>
    rw [if_neg (by decide)]
    refine ⟨_, x, rfl, ?_⟩
    have := key (st.part b) (st.full (c.heap b)) ⟨by rw [hp]; exact hpn, fun t => by
      rw [hfull]
      constructor
      · intro h
        by_cases e : t = s
        · exact Or.inl ⟨e, rfl⟩
        · exact Or.inr ⟨e, h⟩
      · rintro (⟨h, _⟩ | ⟨_, h⟩)
        · rw [h, hp]; exact List.mem_cons_self ..
        · exact h⟩ (by rw [hnfull, hfull])
    rw [upd_self, upd_self] at this
    exact this

/-- Picking a span which is not in use. -/
theorem pick_inv (I : Inv c st held) {p : Pick} {s : Nat} {st' : St} (h : pick st p = some (s, st')) :
    Inv c st' held ∧ s ∈ st'.mapped ∧ (st'.span s).act = false ∧ s ∉ st'.cache ∧ st'.free = st.free ∧ st'.part = st.part ∧
      (∀ x, x ∈ st'.cache → x ∈ st.cache) := by
  cases p with
  | fail => simp [pick] at h
  | fresh t =>
    unfold pick at h
    dsimp only at h
    split at h
    · simp at h
    · rename_i hm
      simp only [Option.some.injEq, Prod.mk.injEq] at h
      obtain ⟨rfl, rfl⟩ := h
      have hna : (st.span t).act = false := by
        cases e : (st.span t).act with
        | false => rfl
        | true => exact absurd (I.actm t e) hm
      refine ⟨⟨List.nodup_cons.mpr ⟨hm, I.mnd⟩, I.cnd, fun s hs => ⟨List.mem_cons_of_mem _ (I.cacheOk s hs).1, (I.cacheOk s hs).2⟩,
        fun s hs => List.mem_cons_of_mem _ (I.actm s hs), I.lim, I.part, I.blocks, I.heldOk, I.freeOk, I.sfd, fun h => ?_⟩,
        List.mem_cons_self .., hna, fun hm' => hm (I.cacheOk t hm').1, rfl, rfl, fun _ h => h⟩
      dsimp only
      rw [List.countP_cons]
      have : fullOf c { st with mapped := t :: st.mapped } h t = false := by
        unfold fullOf; dsimp only; rw [hna]; rfl
      rw [this]
      exact I.full h
  | cached j =>
    unfold pick at h
    dsimp only at h
    split at h
    · simp at h
    · rename_i t ht
      simp only [Option.some.injEq, Prod.mk.injEq] at h
      obtain ⟨rfl, rfl⟩ := h
      have hmem : t ∈ st.cache := List.mem_of_getElem? ht
      obtain ⟨h1, h2⟩ := I.cacheOk t hmem
      have hsub : ∀ x, x ∈ st.cache.eraseIdx j → x ∈ st.cache := fun x hx => List.mem_of_mem_eraseIdx hx
      refine ⟨⟨I.mnd, I.cnd.sublist (List.eraseIdx_sublist _ _), fun s hs => I.cacheOk s (hsub s hs), I.actm, I.lim, I.part,
        I.blocks, I.heldOk, I.freeOk, I.sfd, I.full⟩, h1, h2, ?_, rfl, rfl, hsub⟩
      dsimp only
      obtain ⟨hj, hjt⟩ := List.getElem?_eq_some_iff.mp ht
      intro hm
      rw [List.mem_eraseIdx_iff_getElem] at hm
      obtain ⟨i, hi, hij, he⟩ := hm
      have := (List.Nodup.getElem_inj_iff I.cnd).mp (he.trans hjt.symm)
      exact hij this

/-- From a new span. -/
theorem malloc_new (hc' : ∀ b, 0 < c.count b) (I : Inv c st held) {b : Nat} (hf : st.free b = [])
    (hp : st.part b = []) {p : Pick} {s : Nat} {st1 : St} (hpick : pick st p = some (s, st1)) :
    ∃ st', malloc c st b p = some (st', some (s, 0)) ∧ Inv c st' (⟨s, 0, b⟩ :: held) := by
  obtain ⟨I1, hm, hna, hnc, hfe, hpe, _⟩ := pick_inv I hpick
  unfold malloc
  rw [hf, hp]
  dsimp only
  rw [hpick]
  dsimp only
  have hbd := partialInit_bounds c.k (c.base s) (c.base s + hdr) (c.count b) (c.size b) (hc' b)
  unfold newSpan
  dsimp only
  generalize partialInit c.k (c.base s) (c.base s + hdr) (c.count b) (c.size b) = n at *
  have hz := (I1.not_act hna).1
  have hns : ∀ h, s ∉ st1.sfd h := fun h hm' => by
    have := ((I1.sfd h).2 s).mp hm'
    rw [hna] at this
    exact Bool.noConfusion this.1
  have hnfull : fullOf c st1 (c.heap b) s = false := by
    unfold fullOf; rw [hna]; rfl
  have key : ∀ pt fu u, u = n → (pt.Nodup ∧ ∀ t, t ∈ pt ↔ (t = s ∧ isFull c ⟨true, b, [], n, u, [], 0⟩ = false) ∨
        (t ≠ s ∧ t ∈ st1.part b)) →
      (fu + (if fullOf c st1 (c.heap b) s then 1 else 0) =
        st1.full (c.heap b) + (if isFull c ⟨true, b, [], n, u, [], 0⟩ then 1 else 0)) →
      Inv c { st1 with span := upd st1.span s ⟨true, b, [], n, u, [], 0⟩,
                       free := upd st1.free b ((List.range' 1 (n - 1)).map fun i => (s, i)),
                       part := upd st1.part b pt, full := upd st1.full (c.heap b) fu } (⟨s, 0, b⟩ :: held) :=
    fun pt fu u hu h1 h2 =>
    I1.change hc' (sp := ⟨true, b, [], n, u, [], 0⟩) hm hnc rfl rfl (fun h => by rw [hna] at h; exact Bool.noConfusion h) hns rfl rfl
      ⟨hbd.2, hu⟩ (by rw [hfe, hf]) h1 h2 (fun i => by
        rw [hz i, count_range', List.count_nil]
        unfold below
        dsimp only
        split <;> split <;> split <;> omega)
  have hps : st1.part b = [] := by rw [hpe, hp]
  by_cases hlt : n < c.count b
  · rw [if_pos hlt, if_pos hlt]
    have hnf : isFull c ⟨true, b, [], n, n, [], 0⟩ = false := by
      unfold isFull
      dsimp only
      simp only [List.isEmpty_nil, Bool.true_and, decide_eq_false_iff_not]
      omega
    refine ⟨_, rfl, ?_⟩
    have := key (s :: st1.part b) (st1.full (c.heap b)) n rfl ⟨by rw [hps]; simp, fun t => by
      rw [hps, hnf]; simp⟩ (by rw [hnfull, hnf])
    rw [upd_self st1.full] at this
    exact this
  · rw [if_neg hlt, if_neg hlt]
    have hn : c.count b = n := by omega
    have hnf : isFull c ⟨true, b, [], n, c.count b, [], 0⟩ = true := by
      unfold isFull
      dsimp only
      simp only [List.isEmpty_nil, Bool.true_and, decide_eq_true_eq]
      omega
    refine ⟨_, rfl, ?_⟩
    have := key (st1.part b) (st1.full (c.heap b) + 1) (c.count b) hn ⟨by rw [hps]; simp, fun t => by
      rw [hps, hnf]; simp⟩ (by rw [hnfull, hnf]; rfl)
    rw [upd_self st1.part] at this
    exact this

/-! ## Freeing -/

/-- Changing a span in use, and what is listed about it, while blocks of it are given back: what has to be checked. -/
theorem Inv.edit (I : Inv c st held) {s : Nat} {sp : Span} {held' : List Held} {pt L cache' : List Nat} {fu : Nat}
    (ha : (st.span s).act = true) (hbin : sp.bin = (st.span s).bin)
    (hsub : ∀ x ∈ held', x ∈ held) (hhc : ∀ t i, t ≠ s → hc held' t i = hc held t i)
    (hcn : cache'.Nodup) (hcm : ∀ t ∈ cache', t ∈ st.cache ∨ (t = s ∧ sp.act = false))
    (hlim : sp.act = true → sp.limit ≤ c.count sp.bin ∧ sp.used + sp.fl.length = sp.limit ∧ sp.lsize = sp.dfl.length)
    (hblk : sp.act = true → ∀ i, hc held' s i + (st.free sp.bin).count (s, i) + sp.fl.count i + sp.dfl.count i =
      below i sp.limit)
    (hgone : sp.act = false → (∀ x ∈ held', x.s ≠ s) ∧ ∀ i, (st.free sp.bin).count (s, i) = 0)
    (hpt : pt.Nodup ∧ ∀ t, t ∈ pt ↔ (t = s ∧ sp.act = true ∧ isFull c sp = false) ∨ (t ≠ s ∧ t ∈ st.part sp.bin))
    (hL : L.Nodup ∧ ∀ t, t ∈ L ↔ (t = s ∧ sp.act = true ∧ sp.lsize = c.count sp.bin) ∨ (t ≠ s ∧ t ∈ st.sfd (c.heap sp.bin)))
    (hfu : fu + (if isFull c (st.span s) then 1 else 0) = st.full (c.heap sp.bin) + (if sp.act && isFull c sp then 1 else 0)) :
    Inv c { st with span := upd st.span s sp, part := upd st.part sp.bin pt, full := upd st.full (c.heap sp.bin) fu,
                    sfd := upd st.sfd (c.heap sp.bin) L, cache := cache' } held' := by
  have hne : ∀ {t}, t ≠ s → (upd st.span s sp) t = st.span t := fun ht => upd_ne _ _ ht
  have hnc : s ∉ st.cache := fun hm => by
    have := (I.cacheOk s hm).2
    rw [ha] at this
    exact Bool.noConfusion this
  refine ⟨I.mnd, hcn, fun t ht => ?_, fun t ht => ?_, fun t ht => ?_, fun b' => ?_, fun t ht i => ?_, fun y hy => ?_,
    fun b' y hy => ?_, fun h => ?_, fun h => ?_⟩
  · dsimp only at ht ⊢
    rcases hcm t ht with h | ⟨h1, h2⟩
    · have : t ≠ s := fun e => hnc (e ▸ h)
      rw [hne this]; exact I.cacheOk t h
    · rw [h1, upd_same]
      exact ⟨I.actm s ha, h2⟩
  · dsimp only at ht ⊢
    by_cases e : t = s
    · rw [e]; exact I.actm s ha
    · rw [hne e] at ht; exact I.actm t ht
  · dsimp only at ht ⊢
    by_cases e : t = s
    · subst e
      rw [upd_same] at ht ⊢
      exact hlim ht
    · rw [hne e] at ht ⊢; exact I.lim t ht
  · dsimp only
    by_cases e : b' = sp.bin
    · subst e
      rw [upd_same]
      refine ⟨hpt.1, fun t => ?_⟩
      rw [hpt.2]
      by_cases e2 : t = s
      · subst e2
        rw [upd_same]
        simp only [true_and, ne_eq, not_true_eq_false, false_and, or_false]
      · rw [hne e2]
        simp only [e2, false_and, ne_eq, not_false_eq_true, true_and, false_or]
        exact (I.part sp.bin).2 t
    · rw [upd_ne _ _ e]
      refine ⟨(I.part b').1, fun t => ?_⟩
      rw [(I.part b').2]
      by_cases e2 : t = s
      · subst e2
        rw [upd_same]
        constructor
        · rintro ⟨_, h2, _⟩
          exact absurd (h2.symm.trans hbin.symm) e
        · rintro ⟨_, h2, _⟩
          exact absurd h2.symm e
      · rw [hne e2]
  · dsimp only at ht ⊢
    by_cases e : t = s
    · subst e
      rw [upd_same] at ht ⊢
      exact hblk ht i
    · rw [hne e] at ht ⊢
      rw [hhc t i e]
      exact I.blocks t ht i
  · dsimp only
    obtain ⟨h1, h2⟩ := I.heldOk y (hsub y hy)
    by_cases e : y.s = s
    · rw [e, upd_same]
      rw [e] at h2
      refine ⟨?_, by rw [hbin, h2]⟩
      cases hact : sp.act with
      | true => rfl
      | false => exact absurd e ((hgone hact).1 y hy)
    · rw [hne e]; exact ⟨h1, h2⟩
  · dsimp only at hy ⊢
    obtain ⟨h1, h2⟩ := I.freeOk b' y hy
    by_cases e2 : y.1 = s
    · rw [e2, upd_same]
      rw [e2] at h2
      refine ⟨?_, by rw [hbin, h2]⟩
      cases hact : sp.act with
      | true => rfl
      | false =>
        have h3 := (hgone hact).2 y.2
        rw [hbin, h2, ← e2] at h3
        exact absurd hy (List.count_eq_zero.mp h3)
    · rw [hne e2]; exact ⟨h1, h2⟩
  · dsimp only
    by_cases e : h = c.heap sp.bin
    · subst e
      rw [upd_same]
      refine ⟨hL.1, fun t => ?_⟩
      rw [hL.2]
      by_cases e2 : t = s
      · subst e2
        rw [upd_same]
        simp only [true_and, ne_eq, not_true_eq_false, false_and, or_false]
      · rw [hne e2]
        simp only [e2, false_and, ne_eq, not_false_eq_true, true_and, false_or]
        exact (I.sfd (c.heap sp.bin)).2 t
    · rw [upd_ne _ _ e]
      refine ⟨(I.sfd h).1, fun t => ?_⟩
      rw [(I.sfd h).2]
      by_cases e2 : t = s
      · subst e2
        rw [upd_same]
        constructor
        · rintro ⟨_, h2, _⟩
          rw [← hbin] at h2
          exact absurd h2.symm e
        · rintro ⟨_, h2, _⟩
          exact absurd h2.symm e
      · rw [hne e2]
  · show upd st.full (c.heap sp.bin) fu h = st.mapped.countP (fullOf c _ h)
    generalize hst : ({ st with span := upd st.span s sp, part := upd st.part sp.bin pt, full := upd st.full (c.heap sp.bin) fu,
                                sfd := upd st.sfd (c.heap sp.bin) L, cache := cache' } : St) = st'
    have hsp : st'.span = upd st.span s sp := by rw [← hst]
    have hch := countP_change I.mnd (I.actm s ha) (p := fullOf c st h) (q := fullOf c st' h) (fun t ht => by
        unfold fullOf; rw [hsp, hne ht])
    have hq : fullOf c st' h s = (sp.act && decide (c.heap sp.bin = h) && isFull c sp) := by
      unfold fullOf; rw [hsp, upd_same]
    have hq2 : fullOf c st h s = (decide (c.heap sp.bin = h) && isFull c (st.span s)) := by
      unfold fullOf; rw [ha, hbin, Bool.true_and]
    rw [hq, hq2, ← I.full h] at hch
    by_cases e : h = c.heap sp.bin
    · subst e
      rw [upd_same]
      simp only [decide_true, Bool.true_and, Bool.and_true] at hch
      omega
    · rw [upd_ne _ _ e]
      have h2 : decide (c.heap sp.bin = h) = false := decide_eq_false fun e' => e e'.symm
      rw [h2] at hch
      simpa using hch.symm

/-- What is left after a block was given back. -/
abbrev without (held : List Held) (s i : Nat) : List Held := held.filter fun x => ¬ (x.s = s ∧ x.i = i)

theorem hc_without_ne {s i t j : Nat} (h : t ≠ s) : hc (without held s i) t j = hc held t j := by
  rw [hc_filter, if_neg (fun h' => h h'.1)]

/-- A block held is in one place only. -/
theorem Inv.place (I : Inv c st held) {x : Held} (hx : x ∈ held) :
    hc held x.s x.i = 1 ∧ (st.free (st.span x.s).bin).count (x.s, x.i) = 0 ∧ (st.span x.s).fl.count x.i = 0 ∧
      (st.span x.s).dfl.count x.i = 0 ∧ x.i < (st.span x.s).limit := by
  have h1 := I.blocks x.s (I.heldOk x hx).1 x.i
  have h2 := hc_pos hx
  unfold below at h1
  split at h1
  · refine ⟨?_, ?_, ?_, ?_, ?_⟩ <;> omega
  · omega

/-- Freeing by another thread. -/
theorem freeDefer_inv (hc' : ∀ b, 0 < c.count b) (I : Inv c st held) {x : Held} (hx : x ∈ held) :
    Inv c (freeDefer c st x.s x.i) (without held x.s x.i) := by
  obtain ⟨ha, hb⟩ := I.heldOk x hx
  obtain ⟨p1, p2, p3, p4, p5⟩ := I.place hx
  obtain ⟨l1, l2, l3⟩ := I.lim x.s ha
  have hnd := I.not_deferred hc' hx
  have hns : ∀ h, x.s ∉ st.sfd h := fun h hm => hnd (((I.sfd h).2 x.s).mp hm).2.2
  obtain ⟨sp, hsp⟩ : ∃ sp : Span, sp = { st.span x.s with dfl := x.i :: (st.span x.s).dfl, lsize := (st.span x.s).lsize + 1 } :=
    ⟨_, rfl⟩
  have hful : isFull c sp = isFull c (st.span x.s) := by rw [hsp]; rfl
  have hbn : sp.bin = (st.span x.s).bin := by rw [hsp]
  have key : ∀ L, (L.Nodup ∧ ∀ t, t ∈ L ↔ (t = x.s ∧ sp.act = true ∧ sp.lsize = c.count sp.bin) ∨
      (t ≠ x.s ∧ t ∈ st.sfd (c.heap sp.bin))) →
      Inv c { st with span := upd st.span x.s sp, sfd := upd st.sfd (c.heap sp.bin) L } (without held x.s x.i) := fun L hL => by
    have h := I.edit (s := x.s) (sp := sp) (held' := without held x.s x.i) (pt := st.part sp.bin) (L := L) (cache' := st.cache)
      (fu := st.full (c.heap sp.bin)) ha hbn (fun y hy => (List.mem_filter.mp hy).1) (fun t j ht => hc_without_ne ht)
      I.cnd (fun t ht => Or.inl ht)
      (fun _ => by rw [hsp]; exact ⟨l1, l2, by simp [l3]⟩)
      (fun _ j => by
        have h1 := I.blocks x.s ha j
        rw [hc_filter, hsp]
        dsimp only
        rw [List.count_cons]
        by_cases e : j = x.i
        · rw [if_pos ⟨rfl, e⟩, e, if_pos (by simp)]
          rw [e, p1] at h1
          omega
        · rw [if_neg (fun h => e h.2), if_neg (by simpa using fun h : x.i = j => e h.symm)]
          omega)
      (fun h => by rw [hsp] at h; exact absurd (ha.symm.trans h) (by decide))
      ⟨(I.part _).1, fun t => by
        rw [(I.part sp.bin).2, hful, hbn]
        by_cases e : t = x.s
        · subst e
          have : sp.act = true := by rw [hsp]; exact ha
          simp [ha, this]
        · simp [e]⟩
      hL (by
        have : sp.act = true := by rw [hsp]; exact ha
        rw [hful, this, Bool.true_and])
    rw [upd_self st.part, upd_self st.full] at h
    exact h
  have hls : sp.lsize = (st.span x.s).lsize + 1 := by rw [hsp]
  have hact : sp.act = true := by rw [hsp]; exact ha
  unfold freeDefer
  dsimp only
  rw [← hsp]
  by_cases e : (st.span x.s).lsize + 1 = c.count (st.span x.s).bin
  · rw [if_pos e, ← hbn]
    exact key (x.s :: st.sfd (c.heap sp.bin)) ⟨List.nodup_cons.mpr ⟨hns _, (I.sfd _).1⟩, fun t => by
      rw [List.mem_cons, hls, hbn, e]
      by_cases e2 : t = x.s
      · simp [e2, hact]
      · simp [e2]⟩
  · rw [if_neg e]
    have h := key (st.sfd (c.heap sp.bin)) ⟨(I.sfd _).1, fun t => by
      rw [hls, hbn]
      by_cases e2 : t = x.s
      · have := hns (c.heap (st.span x.s).bin)
        simp only [e2, hact, e]
        simp [this]
      · simp [e2]⟩
    rw [upd_self] at h
    exact h

/-- Freeing by the owner, in terms of the state before: the list of the bin and the counter after a full span was listed again. -/
theorem freeDirect_inv (hc' : ∀ b, 0 < c.count b) (I : Inv c st held) {x : Held} (hx : x ∈ held) :
    ∃ st', freeDirect c st x.s x.i = some st' ∧ Inv c st' (without held x.s x.i) := by
  obtain ⟨ha, hb⟩ := I.heldOk x hx
  obtain ⟨p1, p2, p3, p4, p5⟩ := I.place hx
  obtain ⟨l1, l2, l3⟩ := I.lim x.s ha
  have hnd := I.not_deferred hc' hx
  have hns : ∀ h, x.s ∉ st.sfd h := fun h hm => hnd (((I.sfd h).2 x.s).mp hm).2.2
  have hnc : x.s ∉ st.cache := fun hm => by
    have := (I.cacheOk x.s hm).2
    rw [ha] at this
    exact Bool.noConfusion this
  -- the used blocks
  have hflt : (st.span x.s).fl.length < (st.span x.s).limit := by
    have h1 := (pigeon (l := (st.span x.s).fl) (n := (st.span x.s).limit) (fun i => by
      have := I.blocks x.s ha i
      unfold below at this
      omega))
    rcases Nat.lt_or_ge (st.span x.s).fl.length (st.span x.s).limit with h | h
    · exact h
    · have := h1.2 (by omega) x.i
      rw [p3, if_pos p5] at this
      omega
  -- listing a full span again
  obtain ⟨pt, fu, hun, hptn, hpts, hptm, hfu⟩ : ∃ pt fu, unfull c st x.s = some { st with
      part := upd st.part (st.span x.s).bin pt, full := upd st.full (c.heap (st.span x.s).bin) fu } ∧
      pt.Nodup ∧ x.s ∈ pt ∧ (∀ t, t ≠ x.s → (t ∈ pt ↔ t ∈ st.part (st.span x.s).bin)) ∧
      fu + (if isFull c (st.span x.s) then 1 else 0) = st.full (c.heap (st.span x.s).bin) := by
    unfold unfull
    dsimp only
    cases hf : isFull c (st.span x.s) with
    | true =>
      have hfl : (st.span x.s).fl = [] := by
        unfold isFull at hf
        simp only [Bool.and_eq_true, List.isEmpty_iff] at hf
        exact hf.1
      have hcl : c.count (st.span x.s).bin = (st.span x.s).used := by
        unfold isFull at hf
        simp only [Bool.and_eq_true, decide_eq_true_eq] at hf
        rw [hfl, List.length_nil] at l2
        omega
      have hpos : 0 < st.full (c.heap (st.span x.s).bin) := by
        rw [I.full, List.countP_pos_iff]
        exact ⟨x.s, I.actm _ ha, by unfold fullOf; rw [ha, hf]; simp⟩
      have hnp : x.s ∉ st.part (st.span x.s).bin := fun hm => by
        have := (((I.part _).2 x.s).mp hm).2.2
        rw [hf] at this
        exact Bool.noConfusion this
      rw [if_pos rfl, if_neg (by omega)]
      refine ⟨x.s :: st.part (st.span x.s).bin, st.full (c.heap (st.span x.s).bin) - 1, ?_, List.nodup_cons.mpr ⟨hnp, (I.part _).1⟩,
        List.mem_cons_self .., fun t ht => ?_, by rw [if_pos rfl]; omega⟩
      · rw [hcl]
        have : upd st.span x.s { st.span x.s with used := (st.span x.s).used } = st.span := upd_self st.span x.s
        rw [this]
      · rw [List.mem_cons]; simp [ht]
    | false =>
      rw [if_neg (by decide)]
      refine ⟨st.part (st.span x.s).bin, st.full (c.heap (st.span x.s).bin), by rw [upd_self, upd_self], (I.part _).1,
        ((I.part _).2 x.s).mpr ⟨ha, rfl, hf⟩, fun t _ => Iff.rfl, by rw [if_neg (by decide)]; omega⟩
  unfold freeDirect
  rw [hun]
  dsimp only
  unfold putBack
  dsimp only
  rw [if_neg (by omega)]
  have hpe : upd st.part (st.span x.s).bin pt (st.span x.s).bin = pt := upd_same _ _ _
  have hblk' : ∀ j, hc (without held x.s x.i) x.s j + (st.free (st.span x.s).bin).count (x.s, j) +
      (x.i :: (st.span x.s).fl).count j + (st.span x.s).dfl.count j = below j (st.span x.s).limit := fun j => by
    have h1 := I.blocks x.s ha j
    rw [hc_filter, List.count_cons]
    by_cases e : j = x.i
    · rw [if_pos ⟨rfl, e⟩, e, if_pos (by simp)]
      rw [e, p1] at h1
      omega
    · rw [if_neg (fun h => e h.2), if_neg (by simpa using fun h : x.i = j => e h.symm)]
      omega
  by_cases hrel : (st.span x.s).used - 1 = (st.span x.s).lsize
  · rw [if_pos hrel, if_pos (by rw [hpe]; exact hpts)]
    refine ⟨_, rfl, ?_⟩
    -- no other block of the span is in use
    have hall := pigeon (l := (x.i :: (st.span x.s).fl) ++ (st.span x.s).dfl) (n := (st.span x.s).limit) (fun j => by
      have := hblk' j
      unfold below at this
      rw [List.count_append]
      omega)
    have hz : ∀ j, hc (without held x.s x.i) x.s j = 0 ∧ (st.free (st.span x.s).bin).count (x.s, j) = 0 := fun j => by
      have h1 := hall.2 (by rw [List.length_append, List.length_cons]; omega) j
      rw [List.count_append] at h1
      have h2 := hblk' j
      unfold below at h2
      omega
    have h := I.edit (s := x.s) (sp := { st.span x.s with fl := x.i :: (st.span x.s).fl, used := (st.span x.s).used - 1, act := false })
      (held' := without held x.s x.i) (pt := pt.erase x.s) (L := st.sfd (c.heap (st.span x.s).bin)) (cache' := x.s :: st.cache)
      (fu := fu) ha rfl (fun y hy => (List.mem_filter.mp hy).1) (fun t j ht => hc_without_ne ht)
      (List.nodup_cons.mpr ⟨hnc, I.cnd⟩) (fun t ht => by
        rcases List.mem_cons.mp ht with h | h
        · exact Or.inr ⟨h, rfl⟩
        · exact Or.inl h)
      (fun h => Bool.noConfusion h) (fun h => Bool.noConfusion h)
      (fun _ => ⟨fun y hy e => by
        have := hc_pos hy
        rw [e, (hz y.i).1] at this
        omega, fun j => (hz j).2⟩)
      ⟨hptn.erase _, fun t => by
        rw [hptn.mem_erase_iff]
        by_cases e : t = x.s
        · simp [e]
        · simp only [e, ne_eq, not_false_eq_true, true_and, false_and, false_or]
          exact hptm t e⟩
      ⟨(I.sfd _).1, fun t => by
        by_cases e : t = x.s
        · simp [e, hns]
        · simp [e]⟩
      (by simpa using hfu)
    dsimp only at h
    rw [upd_self st.sfd] at h
    rw [hpe, upd_upd]
    exact h
  · rw [if_neg hrel]
    refine ⟨_, rfl, ?_⟩
    have hnf : isFull c { st.span x.s with fl := x.i :: (st.span x.s).fl, used := (st.span x.s).used - 1 } = false := by
      unfold isFull; rfl
    have h := I.edit (s := x.s) (sp := { st.span x.s with fl := x.i :: (st.span x.s).fl, used := (st.span x.s).used - 1 })
      (held' := without held x.s x.i) (pt := pt) (L := st.sfd (c.heap (st.span x.s).bin)) (cache' := st.cache)
      (fu := fu) ha rfl (fun y hy => (List.mem_filter.mp hy).1) (fun t j ht => hc_without_ne ht)
      I.cnd (fun t ht => Or.inl ht)
      (fun _ => ⟨l1, by dsimp only; rw [List.length_cons]; omega, l3⟩) (fun _ => hblk')
      (fun h => absurd (ha.symm.trans h) (by decide))
      ⟨hptn, fun t => by
        rw [hnf]
        by_cases e : t = x.s
        · simp [e, hpts, ha]
        · simp only [e, ne_eq, not_false_eq_true, true_and, false_and, false_or]
          exact hptm t e⟩
      ⟨(I.sfd _).1, fun t => by
        by_cases e : t = x.s
        · simp [e, hns, hnd]
        · simp [e]⟩
      (by rw [hnf]; simpa using hfu)
    dsimp only at h
    rw [upd_self st.sfd] at h
    exact h

/-! ## Adopting deferred spans and unmapping -/

/-- One deferred span. -/
theorem adopt_one (hc' : ∀ b, 0 < c.count b) (I : Inv c st held) {h s : Nat} {rest : List Nat} (hs : st.sfd h = s :: rest) :
    st.full h ≠ 0 ∧ Inv c { st with full := upd st.full h (st.full h - 1), span := upd st.span s { st.span s with act := false },
                                    cache := s :: st.cache, sfd := upd st.sfd h rest } held := by
  obtain ⟨sn, sm⟩ := I.sfd h
  obtain ⟨ha, hh, hl⟩ := (sm s).mp (by rw [hs]; exact List.mem_cons_self ..)
  obtain ⟨hz, hf⟩ := I.all_deferred hc' ha hl
  rw [hs] at sn
  have hpos : 0 < st.full h := by
    rw [I.full, List.countP_pos_iff]
    exact ⟨s, I.actm _ ha, by unfold fullOf; rw [ha, hf, hh]; simp⟩
  have hnc : s ∉ st.cache := fun hm => by
    have := (I.cacheOk s hm).2
    rw [ha] at this
    exact Bool.noConfusion this
  refine ⟨by omega, ?_⟩
  have hnp : s ∉ st.part (st.span s).bin := fun hm => by
    have := (((I.part _).2 s).mp hm).2.2
    rw [hf] at this
    exact Bool.noConfusion this
  have h2 := I.edit (s := s) (sp := { st.span s with act := false }) (held' := held) (pt := st.part (st.span s).bin) (L := rest)
    (cache' := s :: st.cache) (fu := st.full (c.heap (st.span s).bin) - 1) ha rfl (fun y hy => hy) (fun t j _ => rfl)
    (List.nodup_cons.mpr ⟨hnc, I.cnd⟩) (fun t ht => by
      rcases List.mem_cons.mp ht with h | h
      · exact Or.inr ⟨h, rfl⟩
      · exact Or.inl h)
    (fun h => Bool.noConfusion h) (fun h => Bool.noConfusion h)
    (fun _ => ⟨fun y hy e => by
      have := hc_pos hy
      rw [e, (hz y.i).1] at this
      omega, fun j => (hz j).2⟩)
    ⟨(I.part _).1, fun t => by
      by_cases e : t = s
      · simp [e, hnp]
      · simp [e]⟩
    ⟨(List.nodup_cons.mp sn).2, fun t => by
      dsimp only
      rw [hh, hs]
      by_cases e : t = s
      · simp [e, (List.nodup_cons.mp sn).1]
      · simp [e]⟩
    (by rw [hf]; dsimp only; rw [hh]; simp; omega)
  dsimp only at h2
  rw [upd_self st.part, hh] at h2
  exact h2

theorem adopt_inv (hc' : ∀ b, 0 < c.count b) {h : Nat} : ∀ (L : List Nat) {st : St}, st.sfd h = L → Inv c st held →
    ∃ st', adoptLoop h L { st with sfd := upd st.sfd h [] } = some st' ∧ Inv c st' held := by
  intro L
  induction L with
  | nil =>
    intro st hs I
    refine ⟨_, rfl, ?_⟩
    rw [← hs, upd_self]
    exact I
  | cons s rest ih =>
    intro st hs I
    obtain ⟨h1, h2⟩ := adopt_one hc' I hs
    obtain ⟨st', e, I'⟩ := ih (by dsimp only; rw [upd_same]) h2
    refine ⟨st', ?_, I'⟩
    rw [adoptLoop]
    dsimp only
    rw [if_neg h1]
    dsimp only at e
    rw [upd_upd] at e
    exact e

theorem unmap_inv (I : Inv c st held) {j s : Nat} (h : st.cache[j]? = some s) :
    Inv c { st with cache := st.cache.eraseIdx j, mapped := st.mapped.erase s } held := by
  obtain ⟨I1, h1, h2, h3, _⟩ := pick_inv I (p := .cached j) (s := s) (st' := { st with cache := st.cache.eraseIdx j }) (by unfold pick; simp only [h])
  dsimp only at h1 h2 h3
  have hne : ∀ t, (st.span t).act = true → t ≠ s := fun t ht e => by
    rw [e, h2] at ht
    exact Bool.noConfusion ht
  refine ⟨I1.mnd.erase _, I1.cnd, fun t ht => ⟨?_, (I1.cacheOk t ht).2⟩, fun t ht => ?_, I1.lim, I1.part, I1.blocks, I1.heldOk,
    I1.freeOk, I1.sfd, fun h => ?_⟩
  · exact (I.mnd.mem_erase_iff).mpr ⟨fun e => h3 (e ▸ ht), (I1.cacheOk t ht).1⟩
  · exact (I.mnd.mem_erase_iff).mpr ⟨hne t ht, I.actm t ht⟩
  · dsimp only
    rw [I.full h]
    have hp := List.perm_cons_erase h1
    rw [hp.countP_eq, List.countP_cons]
    have : fullOf c st h s = false := by unfold fullOf; rw [h2]; rfl
    rw [this]
    rfl

end

end Verif.Rp
