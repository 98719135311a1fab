import Verif.Deque.Spec

namespace Verif.Deque

/-- Slot of ring index `k` in array `a`. -/
def slot (s : St) (a k : Nat) : Option Task := (s.heap a).buf (k % (s.heap a).size)

/-- What a thread's local variables tell, for the push/steal system. -/
def PcOk (s : St) : Pc → Prop
  | .idle => True
  | .push0 _ => True
  | .push1 _ b => b = s.bottom
  | .push2 _ b t => b = s.bottom ∧ t ≤ s.top
  | .push3 _ b t a => b = s.bottom ∧ t ≤ s.top ∧ a = s.cur
  | .pushRe _ b => b = s.bottom ∧ s.bottom - s.top < (s.heap s.cur).size
  | .push4 _ b a => b = s.bottom ∧ a = s.cur ∧ s.bottom - s.top < (s.heap s.cur).size
  | .push5 w b => b = s.bottom ∧ s.bottom - s.top < (s.heap s.cur).size ∧ slot s s.cur s.bottom = some w
  | .grow0 _ b => b = s.bottom
  | .grow1 _ b a => b = s.bottom ∧ a = s.cur
  | .grow2 _ b a t => b = s.bottom ∧ a = s.cur ∧ t ≤ s.top ∧ s.bottom - t ≤ (s.heap s.cur).size
  | .grow3 _ b a n => b = s.bottom ∧ a = s.cur ∧ n ≠ s.cur ∧ n < s.next ∧ (s.heap n).live = true ∧
      (s.heap n).size = (s.heap s.cur).size * 2 ∧
      ∀ k, s.top ≤ k → k < s.bottom → slot s n k = s.pushed[k]?
  | .grow4 _ b a => b = s.bottom ∧ a ≠ s.cur ∧ a < s.next ∧ (s.heap a).live = true ∧
      s.bottom - s.top < (s.heap s.cur).size
  | .steal0 => True
  | .steal1 t => t ≤ s.top
  | .steal2 t => t ≤ s.top ∧ t < s.bottom
  | .steal3 t a => t ≤ s.top ∧ t < s.bottom ∧ a < s.next ∧ (s.top = t → slot s a t = s.pushed[t]?)
  | .steal4 t x => t ≤ s.top ∧ t < s.bottom ∧ (s.top = t → x = s.pushed[t]?)
  | _ => False

/-- The thread is idle or stealing. -/
def Thief : Pc → Prop
  | .idle | .steal0 | .steal1 _ | .steal2 _ | .steal3 _ _ | .steal4 _ _ => True
  | _ => False

structure Glob (s : St) : Prop where
  le : s.top ≤ s.bottom
  len : s.bottom = s.pushed.length
  fit : s.bottom - s.top ≤ (s.heap s.cur).size
  pos : 0 < (s.heap s.cur).size
  live : (s.heap s.cur).live = true
  cur : s.cur < s.next
  ring : ∀ k, s.top ≤ k → k < s.bottom → slot s s.cur k = s.pushed[k]?
  out : delivered s.rets = (s.pushed.take s.top).map some

/-- The argument of the push in progress, if any. -/
def pending : Pc → List Task
  | .push0 w | .push1 w _ | .push2 w _ _ | .push3 w _ _ _ | .pushRe w _ | .push4 w _ _ | .push5 w _
  | .grow0 w _ | .grow1 w _ _ | .grow2 w _ _ _ | .grow3 w _ _ _ | .grow4 w _ _ => [w]
  | _ => []

structure Inv (o : Tid) (s : St) : Prop where
  g : Glob s
  pc : ∀ i, PcOk s (s.pcs i)
  thief : ∀ i, i ≠ o → Thief (s.pcs i)

theorem mod_ne_of_lt {n a b : Nat} (h1 : a < b) (h2 : b - a < n) : a % n ≠ b % n := by
  intro h
  have e : (b - a) % n = 0 := by
    have h3 : a ≡ b [MOD n] := h
    exact Nat.mod_eq_zero_of_dvd ((Nat.modEq_iff_dvd' (by omega)).1 h3)
  rw [Nat.mod_eq_of_lt h2] at e
  omega

theorem foldl_update_notin (old : Arr) (n j : Nat) : ∀ (l : List Nat) (f : Nat → Option Task),
    (∀ i ∈ l, i % n ≠ j) →
    l.foldl (fun f i => Function.update f (i % n) (old.buf (i % old.size))) f j = f j
  | [], _, _ => rfl
  | i :: l, f, h => by
    rw [List.foldl_cons, foldl_update_notin old n j l _ (fun x hx => h x (by simp [hx])),
      Function.update_of_ne (h i (by simp)).symm]

theorem grown_slot (old : Arr) (t b k : Nat) (hp : 0 < old.size) (h1 : t ≤ k) (h2 : k < b) (h3 : b - t ≤ old.size) :
    (grown old t b).buf (k % (old.size * 2)) = old.buf (k % old.size) := by
  unfold grown
  simp only
  have e : List.range' t (b - t) = List.range' t (k - t) ++ k :: List.range' (k + 1) (b - k - 1) := by
    have h4 : List.range' t (b - t) = List.range' t (k - t) ++ List.range' (t + (k - t)) (b - k) := by
      rw [List.range'_append_1]; congr 1; omega
    rw [h4, show t + (k - t) = k by omega]
    congr 1
    obtain ⟨m, hm⟩ : ∃ m, b - k = m + 1 := ⟨b - k - 1, by omega⟩
    rw [hm, List.range'_succ]; rfl
  rw [e, List.foldl_append, List.foldl_cons, foldl_update_notin]
  · rw [Function.update_self]
  · intro i hi
    rw [List.mem_range'_1] at hi
    exact (mod_ne_of_lt (by omega) (by omega)).symm

theorem delivered_got (l : List (Tid × Ret)) (i : Tid) (x : Option Task) :
    delivered (l ++ [(i, .got x)]) = delivered l ++ [x] := by simp [delivered]

theorem delivered_empty (l : List (Tid × Ret)) (i : Tid) : delivered (l ++ [(i, .empty)]) = delivered l := by
  simp [delivered]

theorem delivered_abort (l : List (Tid × Ret)) (i : Tid) : delivered (l ++ [(i, .abort)]) = delivered l := by
  simp [delivered]

/-- Changing only program counters. -/
theorem inv_setPc {o i s p} (h : Inv o s) (hp : PcOk s p) (ht : i ≠ o → Thief p) : Inv o (setPc s i p) where
  g := ⟨h.g.le, h.g.len, h.g.fit, h.g.pos, h.g.live, h.g.cur, h.g.ring, h.g.out⟩
  pc := fun j => by
    by_cases e : j = i
    · subst e; simp only [setPc, Function.update_self]; revert hp; cases p <;> exact id
    · simp only [setPc, Function.update_of_ne e]
      have := h.pc j
      revert this; cases s.pcs j <;> exact id
  thief := fun j hj => by
    by_cases e : j = i
    · subst e; simp only [setPc, Function.update_self]; exact ht hj
    · simp only [setPc, Function.update_of_ne e]; exact h.thief j hj

theorem inv_done {o i s r} (h : Inv o s) (hr : r = .empty ∨ r = .abort) : Inv o (done s i r) where
  g := ⟨h.g.le, h.g.len, h.g.fit, h.g.pos, h.g.live, h.g.cur, h.g.ring, by
    rcases hr with rfl | rfl
    · show delivered (s.rets ++ _) = _; rw [delivered_empty]; exact h.g.out
    · show delivered (s.rets ++ _) = _; rw [delivered_abort]; exact h.g.out⟩
  pc := fun j => by
    by_cases e : j = i
    · subst e; simp only [done, Function.update_self]; trivial
    · simp only [done, Function.update_of_ne e]
      have := h.pc j
      revert this; cases s.pcs j <;> exact id
  thief := fun j hj => by
    by_cases e : j = i
    · subst e; simp only [done, Function.update_self]; trivial
    · simp only [done, Function.update_of_ne e]; exact h.thief j hj

/-- A successful compare-and-swap of `top`. -/
theorem inv_cas {o i s x} (h : Inv o s) (hlt : s.top < s.bottom) (hx : x = s.pushed[s.top]?) :
    Inv o (done { s with top := s.top + 1 } i (.got x)) where
  g := ⟨by show s.top + 1 ≤ s.bottom; omega, h.g.len, by have := h.g.fit; show s.bottom - (s.top + 1) ≤ (s.heap s.cur).size; omega,
    h.g.pos, h.g.live, h.g.cur, fun k h1 h2 => h.g.ring k (by have : s.top + 1 ≤ k := h1; omega) h2, by
    show delivered (s.rets ++ _) = (s.pushed.take (s.top + 1)).map some
    have hl : s.top < s.pushed.length := by have := h.g.len; omega
    rw [delivered_got, h.g.out, List.take_succ_eq_append_getElem hl, hx, List.getElem?_eq_getElem hl, List.map_append]
    rfl⟩
  pc := fun j => by
    by_cases e : j = i
    · subst e; simp only [done, Function.update_self]; trivial
    · simp only [done, Function.update_of_ne e]
      have := h.pc j
      have hfit := h.g.fit
      revert this
      cases s.pcs j <;> simp only [PcOk] <;> intro this
      case idle => trivial
      case push0 => trivial
      case push1 => exact this
      case push2 => exact ⟨this.1, by omega⟩
      case push3 => exact ⟨this.1, by omega, this.2.2⟩
      case pushRe => exact ⟨this.1, by omega⟩
      case push4 => exact ⟨this.1, this.2.1, by omega⟩
      case push5 => exact ⟨this.1, by omega, this.2.2⟩
      case grow0 => exact this
      case grow1 => exact this
      case grow2 => exact ⟨this.1, this.2.1, by omega, this.2.2.2⟩
      case grow3 =>
        exact ⟨this.1, this.2.1, this.2.2.1, this.2.2.2.1, this.2.2.2.2.1, this.2.2.2.2.2.1,
          fun k h1 h2 => this.2.2.2.2.2.2 k (by omega) h2⟩
      case grow4 => exact ⟨this.1, this.2.1, this.2.2.1, this.2.2.2.1, by omega⟩
      case steal0 => trivial
      case steal1 => omega
      case steal2 => exact ⟨by omega, this.2⟩
      case steal3 => exact ⟨by omega, this.2.1, this.2.2.1, fun h => by omega⟩
      case steal4 => exact ⟨by omega, this.2.1, fun h => by omega⟩
      all_goals exact this
  thief := fun j hj => by
    by_cases e : j = i
    · subst e; simp only [done, Function.update_self]; trivial
    · simp only [done, Function.update_of_ne e]; exact h.thief j hj

/-- An owner step that changes memory: enough to look at thieves. -/
theorem inv_owner {o s s' p} (h : Inv o s) (hpcs : s'.pcs = s.pcs) (g : Glob s') (hp : PcOk s' p)
    (hth : ∀ q, Thief q → PcOk s q → PcOk s' q) : Inv o (setPc s' o p) where
  g := ⟨g.le, g.len, g.fit, g.pos, g.live, g.cur, g.ring, g.out⟩
  pc := fun j => by
    by_cases e : j = o
    · subst e; simp only [setPc, Function.update_self]; revert hp; cases p <;> exact id
    · simp only [setPc, Function.update_of_ne e, hpcs]
      have := hth _ (h.thief j e) (h.pc j)
      revert this; cases s.pcs j <;> exact id
  thief := fun j hj => by
    simp only [setPc, Function.update_of_ne hj, hpcs]; exact h.thief j hj

theorem inv_go {o i s} (h : Inv o s) : (go s i).ub = true ∨ Inv o (go s i) := by
  have hpc := h.pc i
  have hth := h.thief i
  have hg := h.g
  have own : ∀ {p}, s.pcs i = p → ¬ Thief p → i = o := by
    intro p hp hn
    by_contra hne
    exact hn (hp ▸ hth hne)
  unfold go
  cases hq : s.pcs i <;> rw [hq] at hpc <;> simp only [PcOk] at hpc <;> simp only
  case idle => exact .inr h
  case push0 w =>
    have e := own hq (by simp [Thief]); subst e
    exact .inr (inv_setPc h (by simp [PcOk]) (fun hn => absurd rfl hn))
  case push1 w b =>
    have e := own hq (by simp [Thief]); subst e
    exact .inr (inv_setPc h ⟨hpc, Nat.le_refl _⟩ (fun hn => absurd rfl hn))
  case push2 w b t =>
    have e := own hq (by simp [Thief]); subst e
    exact .inr (inv_setPc h ⟨hpc.1, hpc.2, rfl⟩ (fun hn => absurd rfl hn))
  case push3 w b t a =>
    have e := own hq (by simp [Thief]); subst e
    obtain ⟨rfl, ht, rfl⟩ := hpc
    rw [if_pos hg.live]
    have := hg.pos
    split
    · exact .inr (inv_setPc h rfl (fun hn => absurd rfl hn))
    · exact .inr (inv_setPc h ⟨rfl, rfl, by omega⟩ (fun hn => absurd rfl hn))
  case pushRe w b =>
    have e := own hq (by simp [Thief]); subst e
    exact .inr (inv_setPc h ⟨hpc.1, rfl, hpc.2⟩ (fun hn => absurd rfl hn))
  case push4 w b a =>
    have e := own hq (by simp [Thief]); subst e
    obtain ⟨rfl, rfl, hlt⟩ := hpc
    rw [if_pos hg.live]
    have hkeep : ∀ k, s.top ≤ k → k < s.bottom → ∀ f : Nat → Option Task,
        Function.update f (s.bottom % (s.heap s.cur).size) (some w) (k % (s.heap s.cur).size) =
          f (k % (s.heap s.cur).size) := fun k h1 h2 f =>
      Function.update_of_ne (mod_ne_of_lt h2 (by omega)) _ _
    refine .inr (inv_owner (s := s) h rfl ⟨hg.le, hg.len, ?_, ?_, ?_, hg.cur, ?_, hg.out⟩ ⟨rfl, ?_, ?_⟩ ?_)
    · simpa [Function.update_self] using hg.fit
    · simpa [Function.update_self] using hg.pos
    · simpa [Function.update_self] using hg.live
    · intro k h1 h2
      simp only [slot, Function.update_self]
      rw [hkeep k h1 h2]
      exact hg.ring k h1 h2
    · simpa [Function.update_self] using hlt
    · simp [slot, Function.update_self]
    · intro q hq' hok
      cases q <;> simp only [Thief] at hq' <;> simp only [PcOk] at hok ⊢
      case steal1 => exact hok
      case steal2 => exact hok
      case steal3 t a =>
        refine ⟨hok.1, hok.2.1, hok.2.2.1, fun he => ?_⟩
        have h4 := hok.2.2.2 he
        by_cases ea : a = s.cur
        · subst ea
          simp only [slot, Function.update_self] at h4 ⊢
          rw [hkeep t (by omega) hok.2.1]
          exact h4
        · simp only [slot, Function.update_of_ne ea] at h4 ⊢
          exact h4
      case steal4 => exact hok
  case push5 w b =>
    have e := own hq (by simp [Thief]); subst e
    obtain ⟨rfl, hlt, hsl⟩ := hpc
    have hle := hg.le
    have hlen := hg.len
    refine .inr (inv_owner (s := s) h rfl ⟨?_, ?_, ?_, hg.pos, hg.live, hg.cur, ?_, ?_⟩ trivial ?_)
    · show s.top ≤ s.bottom + 1; omega
    · simp [hlen]
    · show s.bottom + 1 - s.top ≤ (s.heap s.cur).size; omega
    · intro k h1 h2
      replace h2 : k < s.bottom + 1 := h2
      show slot s s.cur k = (s.pushed ++ [w])[k]?
      rcases Nat.lt_or_ge k s.bottom with h3 | h3
      · rw [hg.ring k h1 h3, List.getElem?_append_left (by omega)]
      · have : k = s.bottom := by omega
        subst this
        rw [hsl, hlen]; simp
    · show delivered s.rets = ((s.pushed ++ [w]).take s.top).map some
      rw [hg.out, List.take_append_of_le_length (by omega)]
    · intro q hq' hok
      have hget : ∀ t, t < s.bottom → (s.pushed ++ [w])[t]? = s.pushed[t]? := fun t ht =>
        List.getElem?_append_left (by omega)
      cases q <;> simp only [Thief] at hq' <;> simp only [PcOk] at hok ⊢
      case steal1 => exact hok
      case steal2 => exact ⟨hok.1, by omega⟩
      case steal3 t a =>
        refine ⟨hok.1, by omega, hok.2.2.1, fun he => ?_⟩
        rw [hget t hok.2.1]
        exact hok.2.2.2 he
      case steal4 t x =>
        refine ⟨hok.1, by omega, fun he => ?_⟩
        rw [hget t hok.2.1]
        exact hok.2.2 he
  case grow0 w b =>
    have e := own hq (by simp [Thief]); subst e
    exact .inr (inv_setPc h ⟨hpc, rfl⟩ (fun hn => absurd rfl hn))
  case grow1 w b a =>
    have e := own hq (by simp [Thief]); subst e
    exact .inr (inv_setPc h ⟨hpc.1, hpc.2, Nat.le_refl _, hg.fit⟩ (fun hn => absurd rfl hn))
  case grow2 w b a t =>
    have e := own hq (by simp [Thief]); subst e
    obtain ⟨rfl, rfl, ht, hfit⟩ := hpc
    rw [if_pos hg.live]
    have hcn : s.cur ≠ s.next := by have := hg.cur; omega
    have hcu : (Function.update s.heap s.next (grown (s.heap s.cur) t s.bottom)) s.cur = s.heap s.cur :=
      Function.update_of_ne hcn _ _
    have hring : ∀ k, s.top ≤ k → k < s.bottom →
        (grown (s.heap s.cur) t s.bottom).buf (k % (grown (s.heap s.cur) t s.bottom).size) = s.pushed[k]? := by
      intro k h1 h2
      have := grown_slot (s.heap s.cur) t s.bottom k hg.pos (by omega) h2 hfit
      have e2 : (grown (s.heap s.cur) t s.bottom).size = (s.heap s.cur).size * 2 := rfl
      rw [e2, this]
      exact hg.ring k h1 h2
    refine .inr (inv_owner (s := s) h rfl ⟨hg.le, hg.len, ?_, ?_, ?_, ?_, ?_, hg.out⟩
      ⟨rfl, rfl, hcn.symm, Nat.lt_succ_self _, ?_, ?_, ?_⟩ ?_)
    · simp only [hcu]; exact hg.fit
    · simp only [hcu]; exact hg.pos
    · simp only [hcu]; exact hg.live
    · show s.cur < s.next + 1; have := hg.cur; omega
    · intro k h1 h2
      simp only [slot, hcu]
      exact hg.ring k h1 h2
    · simp only [Function.update_self]; rfl
    · simp only [Function.update_self, hcu]; rfl
    · intro k h1 h2
      simp only [slot, Function.update_self]
      exact hring k h1 h2
    · intro q hq' hok
      cases q <;> simp only [Thief] at hq' <;> simp only [PcOk] at hok ⊢
      case steal1 => exact hok
      case steal2 => exact hok
      case steal3 t a =>
        have ha : a ≠ s.next := by have := hok.2.2.1; omega
        refine ⟨hok.1, hok.2.1, by omega, fun he => ?_⟩
        simp only [slot, Function.update_of_ne ha]
        exact hok.2.2.2 he
      case steal4 => exact hok
  case grow3 w b a n =>
    have e := own hq (by simp [Thief]); subst e
    obtain ⟨rfl, rfl, hne, hn, hl, hs, hr⟩ := hpc
    have hp := hg.pos
    have hf := hg.fit
    refine .inr (inv_owner (s := s) h rfl ⟨hg.le, hg.len, ?_, ?_, hl, hn, hr, hg.out⟩
      ⟨rfl, hne.symm, hg.cur, hg.live, ?_⟩ ?_)
    · show s.bottom - s.top ≤ (s.heap n).size; omega
    · show 0 < (s.heap n).size; omega
    · show s.bottom - s.top < (s.heap n).size; omega
    · intro q hq' hok
      cases q <;> simp only [Thief] at hq' <;> simp only [PcOk] at hok ⊢
      all_goals exact hok
  case grow4 w b a =>
    have e := own hq (by simp [Thief]); subst e
    obtain ⟨rfl, hne, hn, hl, hlt⟩ := hpc
    rw [if_pos hl]
    have hcu : (Function.update s.heap a { s.heap a with live := false }) s.cur = s.heap s.cur :=
      Function.update_of_ne hne.symm _ _
    refine .inr (inv_owner (s := s) h rfl ⟨hg.le, hg.len, ?_, ?_, ?_, hg.cur, ?_, hg.out⟩ ⟨rfl, ?_⟩ ?_)
    · simp only [hcu]; exact hg.fit
    · simp only [hcu]; exact hg.pos
    · simp only [hcu]; exact hg.live
    · intro k h1 h2
      simp only [slot, hcu]
      exact hg.ring k h1 h2
    · simp only [hcu]; exact hlt
    · intro q hq' hok
      cases q <;> simp only [Thief] at hq' <;> simp only [PcOk] at hok ⊢
      case steal1 => exact hok
      case steal2 => exact hok
      case steal3 t a' =>
        refine ⟨hok.1, hok.2.1, hok.2.2.1, fun he => ?_⟩
        have h4 := hok.2.2.2 he
        by_cases ea : a' = a
        · subst ea; simpa [slot, Function.update_self] using h4
        · simpa [slot, Function.update_of_ne ea] using h4
      case steal4 => exact hok
  case steal0 => exact .inr (inv_setPc h (Nat.le_refl _) (fun _ => trivial))
  case steal1 t =>
    split
    · exact .inr (inv_setPc h ⟨hpc, by assumption⟩ (fun _ => trivial))
    · exact .inr (inv_done h (.inl rfl))
  case steal2 t =>
    exact .inr (inv_setPc h ⟨hpc.1, hpc.2, hg.cur, fun he => hg.ring t (by omega) hpc.2⟩ (fun _ => trivial))
  case steal3 t a =>
    split
    · exact .inr (inv_setPc h ⟨hpc.1, hpc.2.1, hpc.2.2.2⟩ (fun _ => trivial))
    · exact .inl rfl
  case steal4 t x =>
    split
    · rename_i he
      subst he
      exact .inr (inv_cas h hpc.2.1 (hpc.2.2 rfl))
    · exact .inr (inv_done h (.inr rfl))

theorem inv_init (o : Tid) {n : Nat} (hn : 0 < n) : Inv o (init n) where
  g := ⟨Nat.le_refl _, rfl, Nat.zero_le _, hn, rfl, Nat.zero_lt_one, fun k _ h2 => by simp [init] at h2, rfl⟩
  pc := fun _ => trivial
  thief := fun _ _ => trivial

theorem inv_step {o s} (a : Act) (h : Inv o s)
    (ha : ∀ i w, (a = .start i (.push w) → i = o) ∧ a ≠ .start i .take) : (step s a).ub = true ∨ Inv o (step s a) := by
  unfold step
  cases a with
  | go i =>
    simp only
    split
    · exact .inl (by assumption)
    · exact inv_go h
  | start i op =>
    simp only
    split
    · exact .inl (by assumption)
    · split
      · cases op with
        | push w =>
          have := (ha i w).1 rfl
          have h' : Inv o { s with begun := s.begun ++ [w] } :=
            ⟨⟨h.g.le, h.g.len, h.g.fit, h.g.pos, h.g.live, h.g.cur, h.g.ring, h.g.out⟩,
              fun j => by have := h.pc j; revert this; simp only; cases s.pcs j <;> exact id, h.thief⟩
          exact .inr (inv_setPc h' trivial (fun hn => absurd this hn))
        | steal => exact .inr (inv_setPc h trivial (fun _ => trivial))
        | take => exact absurd rfl (ha i 0).2
      · exact .inr h

theorem step_ub {s a} (h : s.ub = true) : step s a = s := by
  cases a <;> simp [step, h]

theorem exec_ub {s} (h : s.ub = true) (acts : List Act) : exec s acts = s := by
  induction acts with
  | nil => rfl
  | cons a l ih => unfold exec at ih ⊢; rw [List.foldl_cons, step_ub h]; exact ih

theorem inv_exec {o s} (acts : List Act) (hacts : OneProducer o acts) (h : s.ub = true ∨ Inv o s) :
    (exec s acts).ub = true ∨ Inv o (exec s acts) := by
  induction acts generalizing s with
  | nil => exact h
  | cons a l ih =>
    have hl : OneProducer o l := fun i w => ⟨fun hm => (hacts i w).1 (by simp [hm]), fun hm => (hacts i w).2 (by simp [hm])⟩
    unfold exec
    rw [List.foldl_cons]
    apply ih hl
    rcases h with h | h
    · rw [step_ub h]; exact .inl h
    · exact inv_step a h fun i w =>
        ⟨fun he => (hacts i w).1 (by simp [he]), fun he => (hacts i w).2 (by simp [he])⟩

end Verif.Deque
