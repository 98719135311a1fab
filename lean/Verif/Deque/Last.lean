import Verif.Deque.Props

/-!
# C25: the last task, taken and stolen at the same time

`take_race_duplicates` shows that a take that overlaps steals can go wrong when two or more tasks are in the queue.  With one task
(or none) left and no push in between, it cannot, in any interleaving: this file proves that.
-/

namespace Verif.Deque

/-- The operations begun: no push; takes by the owner only. -/
def OwnerTakes (o : Tid) (acts : List Act) : Prop :=
  ∀ i, (∀ w, Act.start i (.push w) ∉ acts) ∧ (Act.start i .take ∈ acts → i = o)

/-- Between the store of `bottom - 1` (:80) and the store that restores it. -/
def Pc.lowered : Pc → Bool
  | .take4 .. => true
  | .take5 .. => true
  | .take6 .. => true
  | _ => false

/-- The take has won its task and has not yet returned it. -/
def Pc.holds : Pc → Bool
  | .take6 _ (.got _) => true
  | _ => false

/-- What a thread can know: `T` is the position of the task, `A` its array, `X` the task, `own` says that it is the owner. -/
def Pc.good (T A : Nat) (X : Option Task) (own : Prop) (top : Nat) : Pc → Prop
  | .idle => True
  | .steal0 => True
  | .steal1 t => t = T ∨ (t = T + 1 ∧ top = T + 1)
  | .steal2 t => t = T
  | .steal3 t a => t = T ∧ a = A
  | .steal4 t x => t = T ∧ x = X
  | .take0 => own
  | .take1 b => own ∧ b = T
  | .take2 b t => own ∧ b = T ∧ (t = T ∨ (t = T + 1 ∧ top = T + 1))
  | .take3 b t a => own ∧ b = T ∧ (t = T ∨ (t = T + 1 ∧ top = T + 1)) ∧ a = A
  | .take4 b t a => own ∧ b = T ∧ (t = T ∨ (t = T + 1 ∧ top = T + 1)) ∧ a = A
  | .take5 b t x => own ∧ b = T ∧ t = T ∧ x = X
  | .take6 b r => own ∧ b = T ∧ top = T + 1 ∧ (r = .empty ∨ r = .got X)
  | _ => False

structure One (o : Tid) (s0 s : St) (T : Nat) (X : Option Task) (extra : List (Tid × Ret)) : Prop where
  ub : s.ub = false
  heap : s.heap = s0.heap
  cur : s.cur = s0.cur
  top : s.top = T ∨ s.top = T + 1
  bottom : s.bottom = if (s.pcs o).lowered then T else T + 1
  good : ∀ i, (s.pcs i).good T s0.cur X (i = o) s.top
  rets : s.rets = s0.rets ++ extra
  del : delivered extra = if s.top = T then [] else if (s.pcs o).holds then [] else [X]

theorem good_mono {T A : Nat} {X : Option Task} {own : Prop} {top : Nat} {p : Pc} (h : p.good T A X own top) :
    p.good T A X own (T + 1) := by
  cases p <;> simp_all [Pc.good] <;> tauto

theorem one_set {o : Tid} {s0 s : St} {T : Nat} {X : Option Task} {extra : List (Tid × Ret)} (h : One o s0 s T X extra) {i : Tid}
    {p : Pc} (hg : p.good T s0.cur X (i = o) s.top) (hl : i = o → p.lowered = (s.pcs o).lowered)
    (hh : i = o → p.holds = (s.pcs o).holds) : One o s0 (setPc s i p) T X extra := by
  have ho : ((setPc s i p).pcs o).lowered = (s.pcs o).lowered ∧ ((setPc s i p).pcs o).holds = (s.pcs o).holds := by
    by_cases e : i = o
    · subst e
      simp only [setPc, Function.update_self]
      exact ⟨hl rfl, hh rfl⟩
    · simp [setPc, Function.update_of_ne (Ne.symm e)]
  refine ⟨h.ub, h.heap, h.cur, h.top, ?_, ?_, h.rets, ?_⟩
  · rw [ho.1]; exact h.bottom
  · intro j
    by_cases e : j = i
    · subst e; simp only [setPc, Function.update_self]; exact hg
    · simp only [setPc, Function.update_of_ne e]; exact h.good j
  · rw [ho.2]; exact h.del

theorem one_done_empty {o : Tid} {s0 s : St} {T : Nat} {X : Option Task} {extra : List (Tid × Ret)} (h : One o s0 s T X extra)
    {i : Tid} (hl : (s.pcs i).lowered = false) (hh : (s.pcs i).holds = false) {r : Ret} (hr : ∀ x, r ≠ .got x) :
    One o s0 (done s i r) T X (extra ++ [(i, r)]) := by
  have h1 := one_set h (i := i) (p := .idle) trivial (fun e => by subst e; rw [hl]; rfl) (fun e => by subst e; rw [hh]; rfl)
  refine ⟨h1.ub, h1.heap, h1.cur, h1.top, h1.bottom, h1.good, ?_, ?_⟩
  · simp [done, h.rets]
  · have : delivered (extra ++ [(i, r)]) = delivered extra := by
      cases r with
      | got x => exact absurd rfl (hr x)
      | empty => simp [delivered]
      | abort => simp [delivered]
    rw [this]; exact h1.del

theorem delivered_append (a b : List (Tid × Ret)) : delivered (a ++ b) = delivered a ++ delivered b := by
  simp [delivered]

theorem one_step {o : Tid} {s0 s : St} {T : Nat} {X : Option Task} {extra : List (Tid × Ret)}
    (hlive : (s0.heap s0.cur).live = true) (hX : X = (s0.heap s0.cur).buf (T % (s0.heap s0.cur).size))
    (h : One o s0 s T X extra) {a : Act} (ha : OwnerTakes o [a]) : ∃ extra', One o s0 (step s a) T X extra' := by
  cases a with
  | start i op =>
    simp only [step, h.ub, Bool.false_eq_true, if_false]
    by_cases hi : s.pcs i = .idle
    · rw [if_pos hi]
      cases op with
      | push w => exact absurd List.mem_cons_self ((ha i).1 w)
      | steal => exact ⟨extra, one_set h trivial (fun e => by subst e; rw [hi]; rfl) (fun e => by subst e; rw [hi]; rfl)⟩
      | take =>
        have e := (ha i).2 List.mem_cons_self
        exact ⟨extra, one_set h e (fun e => by subst e; rw [hi]; rfl) (fun e => by subst e; rw [hi]; rfl)⟩
    · rw [if_neg hi]; exact ⟨extra, h⟩
  | go i =>
    simp only [step, h.ub, Bool.false_eq_true, if_false]
    have hg := h.good i
    have hlv : (s.heap s0.cur).live = true := by rw [h.heap]; exact hlive
    cases hp : s.pcs i with
    | idle => simp only [go, hp]; exact ⟨extra, h⟩
    | push0 => rw [hp] at hg; exact hg.elim
    | push1 => rw [hp] at hg; exact hg.elim
    | push2 => rw [hp] at hg; exact hg.elim
    | push3 => rw [hp] at hg; exact hg.elim
    | pushRe => rw [hp] at hg; exact hg.elim
    | push4 => rw [hp] at hg; exact hg.elim
    | push5 => rw [hp] at hg; exact hg.elim
    | grow0 => rw [hp] at hg; exact hg.elim
    | grow1 => rw [hp] at hg; exact hg.elim
    | grow2 => rw [hp] at hg; exact hg.elim
    | grow3 => rw [hp] at hg; exact hg.elim
    | grow4 => rw [hp] at hg; exact hg.elim
    | steal0 =>
      simp only [go, hp]
      refine ⟨extra, one_set h ?_ (fun e => by subst e; rw [hp]; rfl) (fun e => by subst e; rw [hp]; rfl)⟩
      rcases h.top with e | e
      · exact .inl e
      · exact .inr ⟨e, e⟩
    | steal1 t =>
      simp only [go, hp]
      rw [hp] at hg
      have hb := h.bottom
      split
      · rename_i hlt
        refine ⟨extra, one_set h ?_ (fun e => by subst e; rw [hp]; rfl) (fun e => by subst e; rw [hp]; rfl)⟩
        rcases hg with e | e
        · exact e
        · split at hb <;> omega
      · exact ⟨_, one_done_empty h (by rw [hp]; rfl) (by rw [hp]; rfl) (by simp)⟩
    | steal2 t =>
      simp only [go, hp]
      rw [hp] at hg
      exact ⟨extra, one_set h ⟨hg, h.cur⟩ (fun e => by subst e; rw [hp]; rfl) (fun e => by subst e; rw [hp]; rfl)⟩
    | steal3 t a =>
      simp only [go, hp]
      rw [hp] at hg
      obtain ⟨rfl, rfl⟩ := hg
      rw [if_pos hlv]
      refine ⟨extra, one_set h ⟨rfl, ?_⟩ (fun e => by subst e; rw [hp]; rfl) (fun e => by subst e; rw [hp]; rfl)⟩
      rw [h.heap]; exact hX.symm
    | steal4 t x =>
      simp only [go, hp]
      rw [hp] at hg
      obtain ⟨rfl, rfl⟩ := hg
      split
      · rename_i ht
        have hnl : i = o → (s.pcs o).lowered = false := fun e => by subst e; rw [hp]; rfl
        have hno : (s.pcs o).holds = false := by
          have hgo := h.good o
          cases hb : (s.pcs o).holds
          · rfl
          · exfalso
            cases hpo : s.pcs o <;> rw [hpo] at hb hgo <;> simp [Pc.holds] at hb
            simp only [Pc.good] at hgo
            omega
        have hpo : ((done { s with top := t + 1 } i (.got x)).pcs o).lowered = (s.pcs o).lowered ∧
            ((done { s with top := t + 1 } i (.got x)).pcs o).holds = false := by
          by_cases e : i = o
          · subst e
            simp only [done, Function.update_self]
            exact ⟨(hnl rfl).symm, rfl⟩
          · simp [done, Function.update_of_ne (Ne.symm e), hno]
        refine ⟨extra ++ [(i, .got x)], h.ub, h.heap, h.cur, .inr rfl, ?_, ?_, ?_, ?_⟩
        · rw [hpo.1]; exact h.bottom
        · intro j
          by_cases e : j = i
          · subst e; simp only [done, Function.update_self]; trivial
          · simp only [done, Function.update_of_ne e]
            exact good_mono (h.good j)
        · simp [done, h.rets]
        · rw [delivered_append, h.del, if_pos ht, hpo.2]
          simp [done, delivered]
      · exact ⟨_, one_done_empty h (by rw [hp]; rfl) (by rw [hp]; rfl) (by simp)⟩
    | take0 =>
      simp only [go, hp]
      rw [hp] at hg
      have hb := h.bottom
      have ho : i = o := hg
      subst ho
      rw [hp] at hb
      simp only [Pc.lowered, Bool.false_eq_true, if_false] at hb
      rw [if_neg (by omega)]
      exact ⟨extra, one_set h ⟨rfl, by omega⟩ (fun _ => by rw [hp]; rfl) (fun _ => by rw [hp]; rfl)⟩
    | take1 b =>
      simp only [go, hp]
      rw [hp] at hg
      refine ⟨extra, one_set h ⟨hg.1, hg.2, ?_⟩ (fun e => by subst e; rw [hp]; rfl) (fun e => by subst e; rw [hp]; rfl)⟩
      rcases h.top with e | e
      · exact .inl e
      · exact .inr ⟨e, e⟩
    | take2 b t =>
      simp only [go, hp]
      rw [hp] at hg
      exact ⟨extra, one_set h ⟨hg.1, hg.2.1, hg.2.2, h.cur⟩ (fun e => by subst e; rw [hp]; rfl)
        (fun e => by subst e; rw [hp]; rfl)⟩
    | take3 b t a =>
      simp only [go, hp]
      rw [hp] at hg
      obtain ⟨ho, hb, ht, hA⟩ := hg
      subst ho
      have hdel := h.del
      rw [hp] at hdel
      refine ⟨extra, h.ub, h.heap, h.cur, h.top, ?_, ?_, h.rets, ?_⟩
      · simp [setPc, Pc.lowered, hb]
      · intro j
        by_cases e : j = i
        · subst e; simp only [setPc, Function.update_self]; exact ⟨trivial, hb, ht, hA⟩
        · simp only [setPc, Function.update_of_ne e]; exact h.good j
      · simpa [setPc, Pc.holds] using hdel
    | take4 b t a =>
      simp only [go, hp]
      rw [hp] at hg
      obtain ⟨ho, hb, ht, hA⟩ := hg
      subst ho hb hA
      rw [if_pos hlv]
      split
      · rename_i hle
        have htt : t = b := by omega
        subst htt
        rw [if_pos rfl]
        refine ⟨extra, one_set h ⟨rfl, rfl, rfl, ?_⟩ (fun _ => by rw [hp]; rfl) (fun _ => by rw [hp]; rfl)⟩
        rw [h.heap]; exact hX.symm
      · refine ⟨extra, one_set h ⟨rfl, rfl, ?_, .inl rfl⟩ (fun _ => by rw [hp]; rfl) (fun _ => by rw [hp]; rfl)⟩
        omega
    | take5 b t x =>
      simp only [go, hp]
      rw [hp] at hg
      obtain ⟨ho, hb, ht, hx⟩ := hg
      subst ho hb hx ht
      have hbot := h.bottom
      rw [hp] at hbot
      have hdel := h.del
      rw [hp] at hdel
      split
      · rename_i hc
        refine ⟨extra, h.ub, h.heap, h.cur, .inr rfl, ?_, ?_, h.rets, ?_⟩
        · simpa [setPc, Pc.lowered] using hbot
        · intro j
          by_cases e : j = i
          · subst e; simp only [setPc, Function.update_self]; exact ⟨trivial, rfl, rfl, .inr rfl⟩
          · simp only [setPc, Function.update_of_ne e]; exact good_mono (h.good j)
        · rw [hdel, if_pos hc]; simp [setPc, Pc.holds]
      · rename_i hc
        refine ⟨extra, one_set h ⟨rfl, rfl, ?_, .inl rfl⟩ (fun _ => by rw [hp]; rfl) (fun _ => by rw [hp]; rfl)⟩
        rcases h.top with e | e
        · exact absurd e hc
        · exact e
    | take6 b r =>
      simp only [go, hp]
      rw [hp] at hg
      obtain ⟨ho, hb, ht, hr⟩ := hg
      subst ho hb
      have hdel := h.del
      rw [hp, if_neg (by omega)] at hdel
      refine ⟨extra ++ [(i, r)], h.ub, h.heap, h.cur, .inr ht, ?_, ?_, ?_, ?_⟩
      · simp [done, Pc.lowered]
      · intro j
        by_cases e : j = i
        · subst e; simp only [done, Function.update_self]; trivial
        · simp only [done, Function.update_of_ne e]; exact h.good j
      · simp [done, h.rets]
      · rw [delivered_append, hdel]
        rcases hr with rfl | rfl
        · simp [done, Pc.holds, delivered, ht]
        · simp [done, Pc.holds, delivered, ht]

theorem one_exec {o : Tid} {s0 : St} {T : Nat} {X : Option Task} (hlive : (s0.heap s0.cur).live = true)
    (hX : X = (s0.heap s0.cur).buf (T % (s0.heap s0.cur).size)) :
    ∀ (acts : List Act) (s : St) (extra : List (Tid × Ret)), One o s0 s T X extra → OwnerTakes o acts →
      ∃ extra', One o s0 (exec s acts) T X extra'
  | [], _, extra, h, _ => ⟨extra, h⟩
  | a :: acts, s, extra, h, ha => by
    obtain ⟨e1, h1⟩ := one_step hlive hX h (a := a) (fun i =>
      ⟨fun w hm => (ha i).1 w (by simp at hm; simp [hm]), fun hm => (ha i).2 (by simp at hm; simp [hm])⟩)
    exact one_exec hlive hX acts _ e1 h1 (fun i =>
      ⟨fun w hm => (ha i).1 w (List.mem_cons_of_mem _ hm), fun hm => (ha i).2 (List.mem_cons_of_mem _ hm)⟩)

/-- A history of whole operations leaves every thread idle and the ring well formed. -/
theorem seqRun_quiet : ∀ (ops : List (Tid × Op)) (s : St), Quiet s → (∀ i, s.pcs i = .idle) → 0 < s.bottom →
    Quiet (seqRun s ops) ∧ ∀ i, (seqRun s ops).pcs i = .idle
  | [], _, q, hi, _ => ⟨q, hi⟩
  | (i, op) :: ops, s, q, hi, hb => by
    have hle := q.le
    have hfit := q.fit
    have key : Quiet (runOp s i op) ∧ (∀ j, (runOp s i op).pcs j = .idle) ∧ 0 < (runOp s i op).bottom := by
      cases op with
      | push w =>
        refine ⟨(contents_push q (hi i) w).2, ?_⟩
        rcases Nat.lt_or_ge (s.bottom - s.top) (s.heap s.cur).size with h | h
        · rw [push_run_fits q (hi i) w h]; exact ⟨hi, Nat.succ_pos _⟩
        · rw [push_run_full q (hi i) w (by omega)]; exact ⟨hi, Nat.succ_pos _⟩
      | steal =>
        rcases Nat.lt_or_ge s.top s.bottom with h | h
        · rw [steal_run q (hi i) h]
          exact ⟨⟨q.ub, by show s.top + 1 ≤ s.bottom; omega, by show s.bottom - (s.top + 1) ≤ (s.heap s.cur).size; omega,
            q.pos, q.live, q.cur⟩, hi, hb⟩
        · rw [steal_run_empty q (hi i) (by omega)]
          exact ⟨⟨q.ub, q.le, q.fit, q.pos, q.live, q.cur⟩, hi, hb⟩
      | take =>
        rcases Nat.lt_or_ge (s.top + 1) s.bottom with h | h
        · rw [take_run_many q (hi i) h]
          exact ⟨⟨q.ub, by show s.top ≤ s.bottom - 1; omega, by show s.bottom - 1 - s.top ≤ (s.heap s.cur).size; omega,
            q.pos, q.live, q.cur⟩, hi, by show 0 < s.bottom - 1; omega⟩
        · rcases Nat.lt_or_ge s.top s.bottom with h' | h'
          · rw [take_run_one q (hi i) (by omega)]
            exact ⟨⟨q.ub, by show s.top + 1 ≤ s.bottom; omega, by show s.bottom - (s.top + 1) ≤ (s.heap s.cur).size; omega,
              q.pos, q.live, q.cur⟩, hi, hb⟩
          · rw [take_run_empty q (hi i) (by omega) (by omega)]
            exact ⟨⟨q.ub, q.le, q.fit, q.pos, q.live, q.cur⟩, hi, hb⟩
    exact seqRun_quiet ops _ key.1 key.2.1 key.2.2

/-- C25, the part that holds of overlapping takes and steals: after any history of whole operations (starting with a push) that
leaves exactly one task, the owner's takes and anybody's steals - any number of them, interleaved step by step in any way - never
touch freed memory and hand out that task at most once and nothing else; and whenever no operation is in progress, it has either
been handed out once or is still the one task in the queue.

Missing: takes that overlap steals with two or more tasks in the queue, where it is false (`take_race_duplicates`). -/
theorem take_last_partial (n : Nat) (hn : 0 < n) (i : Tid) (w x : Task) (ops : List (Tid × Op))
    (hone : (specRun [] ((i, .push w) :: ops)).1 = [x]) (o : Tid) (acts : List Act) (ha : OwnerTakes o acts) :
    let s0 := seqRun (init n) ((i, .push w) :: ops)
    let s := exec s0 acts
    s.ub = false ∧ ∃ extra, s.rets = s0.rets ++ extra ∧ (delivered extra = [] ∨ delivered extra = [some x]) ∧
      ((∀ j, s.pcs j = .idle) → delivered extra ++ contents s = [some x]) := by
  intro s0 s
  have q0 : Quiet (init n) := ⟨rfl, Nat.le_refl _, Nat.zero_le _, hn, rfl, Nat.zero_lt_one⟩
  have hf := push_run_fits (i := i) q0 rfl w (by simpa [init] using hn)
  have hq : Quiet s0 ∧ ∀ j, s0.pcs j = .idle :=
    seqRun_quiet ops (runOp (init n) i (.push w)) (contents_push (i := i) q0 rfl w).2 (by rw [hf]; intro j; rfl)
      (by rw [hf]; simp [init])
  have hc : contents s0 = [some x] := by rw [(sequential_history_partial n hn i w ops).1, hone]; rfl
  have hlen : s0.bottom - s0.top = 1 := by simpa [contents] using congrArg List.length hc
  have hle := hq.1.le
  have hX : some x = (s0.heap s0.cur).buf (s0.top % (s0.heap s0.cur).size) := by
    simp only [contents, hlen] at hc
    simpa using hc.symm
  obtain ⟨extra, h⟩ := one_exec (o := o) (s0 := s0) (T := s0.top) hq.1.live hX acts s0 []
    ⟨hq.1.ub, rfl, rfl, .inl rfl, by rw [hq.2 o]; show s0.bottom = s0.top + 1; omega,
      fun j => by rw [hq.2 j]; trivial, by simp, by simp [delivered]⟩ ha
  have h : One o s0 s s0.top (some x) extra := h
  refine ⟨h.ub, extra, h.rets, ?_, fun hid => ?_⟩
  · rw [h.del]
    split
    · exact .inl rfl
    · split
      · exact .inl rfl
      · exact .inr rfl
  · have hb := h.bottom
    rw [hid o] at hb
    simp only [Pc.lowered, Bool.false_eq_true, if_false] at hb
    have hd := h.del
    rw [hid o] at hd
    simp only [Pc.holds, Bool.false_eq_true, if_false] at hd
    rw [hd]
    rcases h.top with e | e
    · simp only [e, if_true, contents, h.heap, h.cur, List.nil_append]
      simp [hX, show s.bottom - s0.top = 1 by omega]
    · simp [e, contents, hb]

example : (specRun [] [(0, .push 1), (0, .push 2), (1, .steal)]).1 = [2] ∧
    delivered (exec (seqRun (init 2) [(0, .push 1), (0, .push 2), (1, .steal)])
      ([.start 0 .take, .go 0, .go 0, .go 0, .start 1 .steal, .go 1, .go 1] ++ List.replicate 6 (.go 0) ++
        List.replicate 6 (.go 1))).rets = [some 1, some 2] := by decide +kernel

end Verif.Deque
