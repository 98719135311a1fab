import Verif.Sched.SleepSpec

namespace Verif.Sched

/-- Number of sleepers that are not system tasks. -/
def countUser (system : Id → Bool) (L : List (Id × Nat)) : Nat := (L.filter fun p => !system p.1).length

structure Inv (base : Int) (s : SS) (L : List (Id × Nat)) (ready : List Id) (waits : List (Id × Id)) (fin : List Id) :
    Prop where
  sq : Rep s.sleepQ (L.map (·.1))
  rq : Rep s.runQ ready
  dis : ∀ x ∈ L.map (·.1), x ∉ ready
  alarm : ∀ p ∈ L, s.alarm p.1 = p.2
  cnt : s.sleepCount = countUser s.system L
  tcnt : s.taskCount = base + if countUser s.system L = 0 then 0 else 1
  sl : ∀ t w, (t, w) ∈ waits ↔ s.sleeping t = some w
  wk : ∀ q ∈ waits, q.1 ∈ L.map (·.1)
  wknd : (waits.map (·.1)).Nodup
  wvnd : (waits.map (·.2)).Nodup
  wvL : ∀ q ∈ waits, q.2 ∉ L.map (·.1)
  wvR : ∀ q ∈ waits, q.2 ∉ ready
  halt : ∀ t, s.halt t = true ↔ t ∈ fin
  finL : ∀ x ∈ L.map (·.1), x ∉ fin
  fuel : L.length < s.fuel

theorem inv_makeReady {base : Int} {s : SS} {L : List (Id × Nat)} {ready : List Id} {waits : List (Id × Id)}
    {fin : List Id} (h : Inv base s L ready waits fin) {t : Id} (h1 : t ∉ L.map (·.1)) (h2 : t ∉ ready)
    (h3 : t ∉ waits.map (·.2)) : Inv base (makeReady s t) L (ready ++ [t]) waits fin := by
  have hr := enqueue_rep h.rq h2
  refine ⟨?_, ?_, ?_, h.alarm, h.cnt, h.tcnt, h.sl, h.wk, h.wknd, h.wvnd, h.wvL, ?_, h.halt, h.finL, ?_⟩
  · exact rep_congr h.sq (m := (enqueue s.runQ t).mem) fun x hx =>
      enqueue_frame h.rq (by rintro rfl; exact h1 hx) (h.dis x hx)
  · exact hr
  · intro x hx
    simp only [List.mem_append, List.mem_singleton, not_or]
    exact ⟨h.dis x hx, by rintro rfl; exact h1 hx⟩
  · intro q hq
    simp only [List.mem_append, List.mem_singleton, not_or]
    exact ⟨h.wvR q hq, by rintro rfl; exact h3 (List.mem_map_of_mem hq)⟩
  · have := h.fuel
    show _ < s.fuel + 1
    omega

theorem countUser_cons (system : Id → Bool) (p : Id × Nat) (L : List (Id × Nat)) :
    countUser system (p :: L) = countUser system L + if system p.1 then 0 else 1 := by
  unfold countUser
  rw [List.filter_cons]
  cases system p.1 <;> simp

theorem inv_unsleep {base : Int} {s : SS} {p : Id × Nat} {L : List (Id × Nat)} {ready : List Id}
    {waits : List (Id × Id)} {fin : List Id} (h : Inv base s (p :: L) ready waits fin) :
    Rep (unsleep s p.1).sleepQ (L.map (·.1)) ∧ Rep (unsleep s p.1).runQ ready ∧
    (unsleep s p.1).alarm = s.alarm ∧ (unsleep s p.1).system = s.system ∧ (unsleep s p.1).sleepCount = countUser s.system L ∧
    (unsleep s p.1).taskCount = base + (if countUser s.system L = 0 then 0 else 1) ∧
    (unsleep s p.1).sleeping = s.sleeping ∧ (unsleep s p.1).halt = s.halt ∧ (unsleep s p.1).fuel = s.fuel := by
  have hq : Rep (dequeue s.sleepQ p.1) (L.map (·.1)) := dequeue_rep (a := []) (by simpa using h.sq)
  have hr : Rep { s.runQ with mem := (dequeue s.sleepQ p.1).mem } ready := rep_congr h.rq fun x hx =>
    dequeue_frame h.sq (by simp) (fun hm => h.dis x hm hx)
  have hc := h.cnt
  have ht := h.tcnt
  rw [countUser_cons] at hc ht
  unfold unsleep
  by_cases hs : s.system p.1 = true
  · rw [if_pos (by exact hs)]
    refine ⟨hq, hr, rfl, rfl, ?_, ?_, rfl, rfl, rfl⟩
    · show s.sleepCount = _
      simpa [hs] using hc
    · show s.taskCount = _
      simpa [hs] using ht
  · rw [if_neg (by exact hs)]
    simp only [hs] at hc ht
    by_cases h0 : countUser s.system L = 0
    · have e : s.sleepCount - 1 = 0 := by simp [hc, h0]
      rw [if_pos (by exact e), h0]
      refine ⟨hq, hr, rfl, rfl, by show s.sleepCount - 1 = _; simpa using e, ?_, rfl, rfl, rfl⟩
      show s.taskCount - 1 = _
      simp [ht]
    · have e : s.sleepCount - 1 ≠ 0 := by simp [hc, h0]
      rw [if_neg (by exact e), if_neg h0]
      refine ⟨hq, hr, rfl, rfl, ?_, ?_, rfl, rfl, rfl⟩
      · show s.sleepCount - 1 = _
        simp [hc]
      · show s.taskCount = _
        simpa using ht

theorem waiters_of_none {ws : List (Id × Id)} {t : Id} (h : t ∉ ws.map (·.1)) : waiters ws t = [] := by
  unfold waiters
  rw [List.filter_eq_nil_iff.2]
  · rfl
  · intro q hq
    simp only [beq_iff_eq]
    rintro rfl
    exact h (List.mem_map_of_mem hq)

theorem waiters_of_mem : ∀ {ws : List (Id × Id)} {t w : Id}, (ws.map (·.1)).Nodup → (t, w) ∈ ws → waiters ws t = [w]
  | q :: ws, t, w, hnd, hm => by
    simp only [List.map_cons, List.nodup_cons] at hnd
    rcases List.mem_cons.1 hm with h | h
    · subst h
      have := waiters_of_none hnd.1
      unfold waiters at this ⊢
      rw [List.filter_cons]
      simp [this]
    · have hne : q.1 ≠ t := by rintro rfl; exact hnd.1 (List.mem_map.2 ⟨_, h, rfl⟩)
      have := waiters_of_mem hnd.2 h
      unfold waiters at this ⊢
      rw [List.filter_cons]
      simpa [hne] using this

theorem inv_wakeOne {base : Int} {s : SS} {p : Id × Nat} {L : List (Id × Nat)} {ready : List Id}
    {waits : List (Id × Id)} {fin : List Id} (h : Inv base s (p :: L) ready waits fin) :
    Inv base (wakeOne (unsleep s p.1) p.1) L (ready ++ p.1 :: waiters waits p.1) (waits.filter (·.1 != p.1)) fin := by
  obtain ⟨u1, u2, u3, u4, u5, u6, u7, u8, u9⟩ := inv_unsleep h
  have hnd := h.sq.nodup
  simp only [List.map_cons, List.nodup_cons] at hnd
  have hph : (unsleep s p.1).halt p.1 = false := by
    rw [u8]
    have := h.finL p.1 (by simp)
    rw [← h.halt] at this
    simpa using this
  obtain ⟨s', hs'⟩ : ∃ s', s' = unsleep s p.1 := ⟨_, rfl⟩
  rw [← hs'] at u1 u2 u3 u4 u5 u6 u7 u8 u9 hph ⊢
  have hpr : p.1 ∉ ready := h.dis p.1 (by simp)
  -- the state in which the waiting field has been cleared
  have key : ∀ s1 : SS, s1.mem = s'.mem → s1.sleepHead = s'.sleepHead → s1.sleepTail = s'.sleepTail →
      s1.runHead = s'.runHead → s1.runTail = s'.runTail → s1.alarm = s'.alarm → s1.system = s'.system →
      s1.sleepCount = s'.sleepCount → s1.taskCount = s'.taskCount → s1.halt = s'.halt → s1.fuel = s'.fuel →
      (∀ t, s1.sleeping t = if t = p.1 then none else s'.sleeping t) →
      Inv base s1 L ready (waits.filter (·.1 != p.1)) fin := by
    intro s1 e1 e2 e3 e4 e5 e6 e7 e8 e9 e10 e11 e12
    refine ⟨?_, ?_, fun x hx => h.dis x (by simp at hx ⊢; tauto), ?_, ?_, ?_, ?_, ?_, ?_, ?_, ?_, ?_, ?_, ?_, ?_⟩
    · unfold SS.sleepQ at u1 ⊢; rw [e1, e2, e3]; exact u1
    · unfold SS.runQ at u2 ⊢; rw [e1, e4, e5]; exact u2
    · intro q hq; rw [e6, u3]; exact h.alarm q (by simp [hq])
    · rw [e8, u5, e7, u4]
    · rw [e9, u6, e7, u4]
    · intro t w
      rw [e12, List.mem_filter, h.sl, u7]
      by_cases ht : t = p.1 <;> simp [ht]
    · intro q hq
      rw [List.mem_filter] at hq
      have := h.wk q hq.1
      simp only [List.map_cons, List.mem_cons] at this
      rcases this with e | e
      · simp [e] at hq
      · exact e
    · exact (List.Nodup.sublist (List.filter_sublist.map _) h.wknd)
    · exact (List.Nodup.sublist (List.filter_sublist.map _) h.wvnd)
    · intro q hq
      have := h.wvL q (List.mem_filter.1 hq).1
      simp only [List.map_cons, List.mem_cons, not_or] at this
      exact this.2
    · intro q hq; exact h.wvR q (List.mem_filter.1 hq).1
    · intro t; rw [e10, u8]; exact h.halt t
    · intro x hx; exact h.finL x (by simp at hx ⊢; tauto)
    · rw [e11, u9]; have := h.fuel; simp at this; omega
  unfold wakeOne
  simp only [hph]
  cases e : s'.sleeping p.1 with
  | none =>
    have hw : waiters waits p.1 = [] := by
      apply waiters_of_none
      intro hm
      obtain ⟨q, hq, e2⟩ := List.mem_map.1 hm
      have := (h.sl q.1 q.2).1 hq
      rw [e2, ← u7, e] at this
      exact absurd this (by simp)
    have := key s' rfl rfl rfl rfl rfl rfl rfl rfl rfl rfl rfl (by
      intro t; by_cases ht : t = p.1
      · simp [ht, e]
      · simp [ht])
    have hm := inv_makeReady this (t := p.1) hnd.1 hpr (by
      intro hm
      obtain ⟨q, hq, e2⟩ := List.mem_map.1 hm
      have := h.wvL q (List.mem_filter.1 hq).1
      simp [e2] at this)
    rw [hw]
    have e' : (makeReady s' p.1).sleeping p.1 = none := e
    simp only [e']
    exact hm
  | some w =>
    have hmem : (p.1, w) ∈ waits := by rw [h.sl, ← u7, e]
    have hw : waiters waits p.1 = [w] := waiters_of_mem h.wknd hmem
    have e' : (makeReady s' p.1).sleeping p.1 = some w := e
    simp only [e']
    have := key { s' with sleeping := Function.update s'.sleeping p.1 none } rfl rfl rfl rfl rfl rfl rfl rfl rfl rfl rfl (by
      intro t; by_cases ht : t = p.1
      · subst ht; simp
      · simp [ht])
    have hm := inv_makeReady this (t := p.1) hnd.1 hpr (by
      intro hm
      obtain ⟨q, hq, e2⟩ := List.mem_map.1 hm
      have := h.wvL q (List.mem_filter.1 hq).1
      simp [e2] at this)
    have hwL := h.wvL _ hmem
    have hwR := h.wvR _ hmem
    simp only [List.map_cons, List.mem_cons, not_or] at hwL
    have hm2 := inv_makeReady hm (t := w) hwL.2 (by
      simp only [List.mem_append, List.mem_singleton, not_or]
      exact ⟨hwR, hwL.1⟩) (by
      intro hm
      obtain ⟨q, hq, e2⟩ := List.mem_map.1 hm
      rw [List.mem_filter] at hq
      have : q = (p.1, w) := by
        refine List.inj_on_of_nodup_map h.wvnd hq.1 hmem ?_
        simpa using e2
      rw [this] at hq
      simp at hq)
    rw [hw]
    rw [List.append_assoc] at hm2
    exact hm2

/-- One round after another. -/
theorem inv_wakeLoop {base : Int} {now : Nat} {fin : List Id} : ∀ {L : List (Id × Nat)} {n : Nat} {s : SS} {ready : List Id}
    {waits : List (Id × Id)}, Inv base s L ready waits fin → L.Pairwise (fun x y => x.2 ≤ y.2) → L.length < n →
    ∃ s', wakeLoop n s now = some s' ∧ s'.system = s.system ∧
      Inv base s' (L.filter (now < ·.2))
        (ready ++ (L.filter (·.2 ≤ now)).flatMap fun p => p.1 :: waiters waits p.1)
        (waits.filter fun q => (L.filter (·.2 ≤ now)).all (·.1 != q.1)) fin
  | [], n, s, ready, waits, h, _, hn => by
    obtain ⟨n, rfl⟩ : ∃ k, n = k + 1 := ⟨n - 1, by simp at hn; omega⟩
    have hh : s.sleepHead = none := by have := h.sq.head; simpa [SS.sleepQ] using this
    refine ⟨s, by simp [wakeLoop, hh], rfl, ?_⟩
    have hw : waits.filter (fun q => (([] : List (Id × Nat)).filter (·.2 ≤ now)).all (·.1 != q.1)) = waits := by simp
    rw [hw]
    simpa using h
  | p :: L, n, s, ready, waits, h, hp, hn => by
    obtain ⟨n, rfl⟩ : ∃ k, n = k + 1 := ⟨n - 1, by simp at hn; omega⟩
    have hh : s.sleepHead = some p.1 := by have := h.sq.head; simpa [SS.sleepQ] using this
    have ha : s.alarm p.1 = p.2 := h.alarm p (by simp)
    have hhalt : s.halt p.1 = false := by
      have := h.finL p.1 (by simp)
      rw [← h.halt] at this
      simpa using this
    rw [List.pairwise_cons] at hp
    simp only [wakeLoop, hh, ha, hhalt]
    by_cases hd : p.2 ≤ now
    · simp only [hd, true_or, if_true]
      have hk := inv_wakeOne h
      obtain ⟨s', e1, e2, e3⟩ := inv_wakeLoop (now := now) hk hp.2 (by simp at hn; omega)
      have hsys : (wakeOne (unsleep s p.1) p.1).system = s.system := by
        have := (inv_unsleep h).2.2.2.1
        unfold wakeOne
        split
        · exact this
        · dsimp only
          split <;> exact this
      refine ⟨s', e1, by rw [e2, hsys], ?_⟩
      have f1 : (p :: L).filter (now < ·.2) = L.filter (now < ·.2) := by
        rw [List.filter_cons]; simp [Nat.not_lt.2 hd]
      have f2 : (p :: L).filter (·.2 ≤ now) = p :: L.filter (·.2 ≤ now) := by
        rw [List.filter_cons]; simp [hd]
      rw [f1, f2]
      have hnd := h.sq.nodup
      simp only [List.map_cons, List.nodup_cons] at hnd
      have g1 : ∀ q ∈ L.filter (·.2 ≤ now), waiters (waits.filter (·.1 != p.1)) q.1 = waiters waits q.1 := by
        intro q hq
        have hne : q.1 ≠ p.1 := by
          intro e
          exact hnd.1 (e ▸ List.mem_map_of_mem (List.mem_filter.1 hq).1)
        unfold waiters
        rw [List.filter_filter]
        congr 1
        apply List.filter_congr
        intro r _
        by_cases hr : r.1 = q.1
        · simp [hr, hne]
        · simp [hr]
      have g2 : ((L.filter (·.2 ≤ now)).flatMap fun q => q.1 :: waiters (waits.filter (·.1 != p.1)) q.1) =
          (L.filter (·.2 ≤ now)).flatMap fun q => q.1 :: waiters waits q.1 := by
        rw [List.flatMap_def, List.flatMap_def]
        congr 1
        apply List.map_congr_left
        intro q hq
        rw [g1 q hq]
      rw [g2] at e3
      rw [List.filter_filter] at e3
      have g3 : waits.filter (fun q => (p :: L.filter (·.2 ≤ now)).all (·.1 != q.1)) =
          waits.filter (fun q => (L.filter (·.2 ≤ now)).all (·.1 != q.1) && q.1 != p.1) := by
        apply List.filter_congr
        intro q _
        rw [List.all_cons, Bool.and_comm]
        congr 1
        rw [bne_comm]
      rw [g3, List.flatMap_cons]
      rw [List.append_assoc] at e3
      exact e3
    · simp only [hd, false_or]
      have f1 : (p :: L).filter (now < ·.2) = p :: L := by
        rw [List.filter_eq_self]
        intro q hq
        rcases List.mem_cons.1 hq with rfl | hq
        · simpa using hd
        · have := hp.1 q hq
          simp; omega
      have f2 : (p :: L).filter (·.2 ≤ now) = [] := by
        rw [List.filter_eq_nil_iff]
        intro q hq
        rcases List.mem_cons.1 hq with rfl | hq
        · simpa using hd
        · have := hp.1 q hq
          simp; omega
      rw [f1, f2]
      refine ⟨s, by simp, rfl, ?_⟩
      have hw : waits.filter (fun q => ([] : List (Id × Nat)).all (·.1 != q.1)) = waits := by simp
      rw [hw]
      simpa using h

theorem inv_addTimeout {base : Int} {s : SS} {L : List (Id × Nat)} {ready : List Id} {waits : List (Id × Id)}
    {fin : List Id} (h : Inv base s L ready waits fin) {t ms now : Nat} (h1 : t ∉ L.map (·.1)) (h2 : t ∉ ready)
    (h3 : t ∉ waits.map (·.2)) (h4 : t ∉ fin) (hb : now + ms * 1000000 < 2 ^ 64) :
    ∃ s', addTimeout s t ms now = some s' ∧ s'.system = s.system ∧
      Inv base s' (L.orderedInsert (fun x y => x.2 ≤ y.2) (t, now + ms * 1000000)) ready waits fin := by
  obtain ⟨W, hW⟩ : ∃ W, W = now + ms * 1000000 := ⟨_, rfl⟩
  have hwhen : (now + ms * 1000000 % 2 ^ 64) % 2 ^ 64 = W := by
    rw [Nat.mod_eq_of_lt (a := ms * 1000000) (by omega), Nat.mod_eq_of_lt hb, hW]
  rw [← hW, List.orderedInsert_eq_take_drop]
  obtain ⟨A, hA⟩ : ∃ A, A = L.takeWhile (fun b => decide ¬(W ≤ b.2)) := ⟨_, rfl⟩
  obtain ⟨B, hB⟩ : ∃ B, B = L.dropWhile (fun b => decide ¬(W ≤ b.2)) := ⟨_, rfl⟩
  have hAB : L = A ++ B := by rw [hA, hB, List.takeWhile_append_dropWhile]
  have hsplit : (List.takeWhile (fun b => decide ¬((t, W).2 ≤ b.2)) L ++ (t, W) ::
      List.dropWhile (fun b => decide ¬((t, W).2 ≤ b.2)) L) = A ++ (t, W) :: B := by rw [hA, hB]
  rw [hsplit]
  have hslot : ((L.map (·.1)).dropWhile fun t => s.alarm t < W) = B.map (·.1) := by
    rw [List.dropWhile_map, hB]
    congr 1
    have : ∀ (M : List (Id × Nat)), (∀ p ∈ M, s.alarm p.1 = p.2) →
        M.dropWhile ((fun t => decide (s.alarm t < W)) ∘ fun x => x.1) = M.dropWhile (fun b => decide ¬(W ≤ b.2)) := by
      intro M
      induction M with
      | nil => intro _; rfl
      | cons p M ih =>
        intro hM
        rw [List.dropWhile_cons, List.dropWhile_cons, ih (fun q hq => hM q (by simp [hq]))]
        simp [hM p (by simp)]
    exact this L h.alarm
  have hfs : findSlot s.mem s.alarm s.fuel s.sleepHead W = some (B.map (·.1)).head? := by
    have := findSlot_seg (alarm := s.alarm) (w := W) (fuel := s.fuel) h.sq.seg (by simpa using h.fuel)
    rw [hslot] at this
    rw [← this, ← h.sq.head]
    rfl
  have hsq' : Rep s.sleepQ (A.map (·.1) ++ B.map (·.1)) := by rw [← List.map_append, ← hAB]; exact h.sq
  have ht' : t ∉ A.map (·.1) ++ B.map (·.1) := by rw [← List.map_append, ← hAB]; exact h1
  have hins := insertAt_rep hsq' ht'
  have hmemiff : ∀ x, x ∈ (A ++ (t, W) :: B).map (·.1) ↔ x = t ∨ x ∈ L.map (·.1) := by
    intro x; rw [hAB]; simp only [List.map_append, List.map_cons, List.mem_append, List.mem_cons]; tauto
  have hcu : countUser s.system (A ++ (t, W) :: B) = countUser s.system L + if s.system t then 0 else 1 := by
    rw [hAB]; unfold countUser
    simp only [List.filter_append, List.filter_cons, List.length_append]
    cases s.system t <;> simp; omega
  -- everything but the counters
  have core : ∀ s1 : SS, s1.sleepQ = insertAt s.sleepQ t (B.map (·.1)).head? → s1.runHead = s.runHead →
      s1.runTail = s.runTail → s1.alarm = Function.update s.alarm t W → s1.fuel = s.fuel + 1 → s1.system = s.system →
      s1.halt = s.halt → s1.sleeping = s.sleeping →
      s1.sleepCount = countUser s.system (A ++ (t, W) :: B) →
      s1.taskCount = base + (if countUser s.system (A ++ (t, W) :: B) = 0 then 0 else 1) →
      Inv base s1 (A ++ (t, W) :: B) ready waits fin := by
    intro s1 e1 e2 e3 e4 e5 e6 e7 e8 e9 e10
    refine ⟨?_, ?_, ?_, ?_, ?_, ?_, ?_, ?_, h.wknd, h.wvnd, ?_, h.wvR, ?_, ?_, ?_⟩
    · rw [e1, List.map_append, List.map_cons]; exact hins
    · have := rep_congr h.rq (m := (insertAt s.sleepQ t (B.map (·.1)).head?).mem) fun x hx =>
        insertAt_frame hsq' ht' (by rintro rfl; exact h2 hx) (by
          rw [← List.map_append, ← hAB]; exact fun hm => h.dis x hm hx)
      have em : s1.mem = (insertAt s.sleepQ t (B.map (·.1)).head?).mem := by rw [← e1]; rfl
      unfold SS.runQ
      rw [em, e2, e3]
      exact this
    · intro x hx
      rcases (hmemiff x).1 hx with rfl | hx
      · exact h2
      · exact h.dis x hx
    · intro p hp
      rw [e4]
      have : p = (t, W) ∨ p ∈ L := by
        rw [hAB]; simp only [List.mem_append, List.mem_cons] at hp ⊢; tauto
      rcases this with rfl | hpL
      · simp
      · rw [Function.update_of_ne]
        · exact h.alarm p hpL
        · rintro rfl; exact h1 (List.mem_map_of_mem hpL)
    · rw [e9, e6]
    · rw [e10, e6]
    · rw [e8]; exact h.sl
    · intro q hq; rw [hmemiff]; exact Or.inr (h.wk q hq)
    · intro q hq; rw [hmemiff, not_or]
      exact ⟨by rintro rfl; exact h3 (List.mem_map_of_mem hq), h.wvL q hq⟩
    · rw [e7]; exact h.halt
    · intro x hx
      rcases (hmemiff x).1 hx with rfl | hx
      · exact h4
      · exact h.finL x hx
    · rw [e5]; have := h.fuel; rw [hAB] at this; simp at this ⊢; omega
  have hc := h.cnt
  have htc := h.tcnt
  unfold addTimeout
  rw [hwhen]
  simp only [hfs]
  by_cases hs : s.system t = true
  · rw [if_pos (by exact hs)]
    refine ⟨_, rfl, rfl, core _ rfl rfl rfl rfl rfl rfl rfl rfl ?_ ?_⟩
    · show s.sleepCount = _
      rw [hcu]; simpa [hs] using hc
    · show s.taskCount = _
      rw [hcu]; simpa [hs] using htc
  · rw [if_neg (by exact hs)]
    by_cases h0 : s.sleepCount = 0
    · rw [if_pos (by exact h0)]
      have hz : countUser s.system L = 0 := by rw [h0] at hc; exact_mod_cast hc.symm
      refine ⟨_, rfl, rfl, core _ rfl rfl rfl rfl rfl rfl rfl rfl ?_ ?_⟩
      · show s.sleepCount + 1 = _
        rw [hcu, hz]; simp [hs, h0]
      · show s.taskCount + 1 = _
        rw [hcu, hz]; simp [hs, htc, hz]
    · rw [if_neg (by exact h0)]
      have hz : countUser s.system L ≠ 0 := by intro e; rw [e] at hc; exact h0 (by simpa using hc)
      refine ⟨_, rfl, rfl, core _ rfl rfl rfl rfl rfl rfl rfl rfl ?_ ?_⟩
      · show s.sleepCount + 1 = _
        rw [hcu, hc]; simp [hs]
      · show s.taskCount = _
        rw [hcu, htc]; simp [hs, hz]

end Verif.Sched
