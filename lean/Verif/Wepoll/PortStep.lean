import Verif.Wepoll.PortInv

/-!
# Sockets of an epoll set and their poll requests: every operation
-/

namespace Verif.Wepoll.Ep

/-! ## Registrations -/

/-- What is registered: the events and the data of a socket. -/
def Port.regs (p : Port) (k : Nat) : Option (Mask × Nat) := (p.find k).map fun x => ((p.sock x).user, (p.sock x).data)

theorem find_iff {p : Port} (h : Base p) (k x : Nat) : p.find k = some x ↔ (k, x) ∈ p.tree := by
  unfold Port.find
  have key : ∀ l : List (Nat × Nat), (l.map (·.1)).Nodup → ((l.find? (fun e => e.1 = k)).map (·.2) = some x ↔ (k, x) ∈ l) := by
    intro l
    induction l with
    | nil => simp
    | cons a l ih =>
      intro hn
      rw [List.map_cons, List.nodup_cons] at hn
      rw [List.find?_cons, List.mem_cons]
      by_cases e : a.1 = k
      · simp only [e, decide_true, Option.map_some, Option.some.injEq]
        constructor
        · intro q; exact Or.inl (by rw [← e, ← q])
        · rintro (q | q)
          · rw [← q]
          · exact absurd (List.mem_map.2 ⟨_, q, rfl⟩) (by rw [← e] at *; exact hn.1)
      · simp only [e, decide_false]
        rw [ih hn.2]
        constructor
        · exact Or.inr
        · rintro (q | q)
          · exact absurd (by rw [← q]) e
          · exact q
  exact key _ h.tk

theorem regs_some {p : Port} (h : Base p) (k : Nat) (m : Mask) (d : Nat) :
    p.regs k = some (m, d) ↔ ∃ x, (k, x) ∈ p.tree ∧ (p.sock x).user = m ∧ (p.sock x).data = d := by
  unfold Port.regs
  constructor
  · intro q
    rw [Option.map_eq_some_iff] at q
    obtain ⟨x, hx, e⟩ := q
    rw [Prod.mk.injEq] at e
    exact ⟨x, (find_iff h k x).1 hx, e.1, e.2⟩
  · rintro ⟨x, hx, rfl, rfl⟩
    rw [(find_iff h k x).2 hx]
    rfl

theorem regs_none {p : Port} (h : Base p) (k : Nat) : p.regs k = none ↔ ∀ x, (k, x) ∉ p.tree := by
  unfold Port.regs
  rw [Option.map_eq_none_iff]
  constructor
  · intro q x hx
    rw [(find_iff h k x).2 hx] at q
    cases q
  · intro q
    cases e : p.find k with
    | none => rfl
    | some x => exact absurd ((find_iff h k x).1 e) (q x)

/-- Two states with the same tree and the same contents have the same registrations. -/
theorem regs_congr {p p' : Port} (h : Base p) (h' : Base p') (ht : ∀ e, e ∈ p'.tree ↔ e ∈ p.tree)
    (hs : ∀ e ∈ p.tree, (p'.sock e.2).user = (p.sock e.2).user ∧ (p'.sock e.2).data = (p.sock e.2).data) (k : Nat) : p'.regs k = p.regs k := by
  cases e : p.regs k with
  | none =>
    rw [regs_none h] at e
    rw [regs_none h']
    exact fun x q => e x ((ht _).1 q)
  | some r =>
    obtain ⟨m, d⟩ := r
    rw [regs_some h] at e
    obtain ⟨x, hx, rfl, rfl⟩ := e
    rw [regs_some h']
    exact ⟨x, (ht _).2 hx, (hs _ hx).1, (hs _ hx).2⟩

/-- Registrations of sockets that the system calls closed may go. -/
def Drop (r r' : Nat → Option (Mask × Nat)) (o : Orc) : Prop := ∀ k, r' k = r k ∨ (r' k = none ∧ o.poll k = .closed)

theorem Eff.drop {p p' : Port} {o : Orc} (ef : Eff p p' o) (h : Base p) (h' : Base p') : Drop p.regs p'.regs o := by
  intro k
  cases e : p.regs k with
  | none =>
    refine Or.inl ?_
    rw [regs_none h] at e
    rw [regs_none h']
    exact fun x q => e x (ef.sub _ q)
  | some r =>
    obtain ⟨m, d⟩ := r
    rw [regs_some h] at e
    obtain ⟨x, hx, rfl, rfl⟩ := e
    by_cases q : (k, x) ∈ p'.tree
    · refine Or.inl ?_
      rw [regs_some h']
      exact ⟨x, q, (ef.keep x).2.1, (ef.keep x).2.2⟩
    · refine Or.inr ⟨?_, ef.gone _ hx q⟩
      rw [regs_none h']
      intro y hy
      have h1 := h.tk
      have hy' := ef.sub _ hy
      have : (k, x) = (k, y) := List.inj_on_of_nodup_map h1 hx hy' rfl
      rw [this] at q
      exact q hy

/-- Setting the registration of one socket. -/
def upd1 (r : Nat → Option (Mask × Nat)) (k : Nat) (v : Option (Mask × Nat)) : Nat → Option (Mask × Nat) := fun z => if z = k then v else r z

/-! ## Setting the events -/

theorem request_upd {p : Port} (h : Base p) {x : Nat} (hd : (p.sock x).del = false) :
    (p.request x).upd = (if x ∈ p.upd then p.upd else p.upd ++ [x]) ∧ (p.request x).sock = p.sock ∧ (p.request x).alive = p.alive ∧
      (p.request x).tree = p.tree ∧ (p.request x).dels = p.dels ∧ (p.request x).io = p.io ∧ (p.request x).g = p.g ∧
      (p.request x).waiting = p.waiting := by
  have hxd : x ∉ p.dels := fun q => by
    have := (h.dm x q).2
    rw [hd] at this
    cases this
  unfold Port.request Port.enq
  by_cases q : x ∈ p.upd
  · rw [if_pos (by simp [q]), if_pos q]
    exact ⟨rfl, rfl, rfl, rfl, rfl, rfl, rfl, rfl⟩
  · rw [if_neg (by simp [q, hxd]), if_neg q]
    exact ⟨rfl, rfl, rfl, rfl, rfl, rfl, rfl, rfl⟩

theorem request_base {p : Port} (h : Base p) {x : Nat} (hx : x ∈ p.alive) (hd : (p.sock x).del = false) : Base (p.request x) := by
  obtain ⟨hu, hs, ha, ht, hdl, _, hg, _⟩ := request_upd h hd
  refine ⟨by rw [ha]; exact h.an, by rw [ht]; exact h.tk, by rw [ha, hs, ht]; exact h.tr, ?_, ?_, by rw [hdl]; exact h.dn,
    by rw [hdl, ha, hs]; exact h.dm, ?_⟩
  · rw [hu]
    split
    · exact h.un
    · rename_i q
      rw [List.nodup_append]
      refine ⟨h.un, by simp, ?_⟩
      intro a haa b hb
      rw [List.mem_singleton] at hb
      subst hb
      exact fun e => q (e ▸ haa)
  · rw [hu, ha, hs]
    intro z hz
    split at hz
    · exact h.um z hz
    · rw [List.mem_append, List.mem_singleton] at hz
      rcases hz with hz | hz
      · exact h.um z hz
      · rw [hz]; exact ⟨hx, hd⟩
  · rw [hg]
    have : tokens (p.request x) = tokens p := by unfold tokens; rw [ha, hs]
    rw [this]
    exact h.gi

theorem cov_request {p : Port} {x y : Nat} (h : Base p) (hd : (p.sock x).del = false) (hc : Cov p y) : Cov (p.request x) y := by
  obtain ⟨hu, hs, ha, _, hdl, _, _, _⟩ := request_upd h hd
  intro hy
  rw [ha] at hy
  rw [hs, hdl]
  refine ⟨(hc hy).1, fun q => ?_⟩
  rcases (hc hy).2 q with a | a
  · refine Or.inl ?_
    rw [hu]
    split
    · exact a
    · simp [a]
  · exact Or.inr a

theorem has_err_hup (ev : Mask) : (ev ||| epollErr ||| epollHup) &&& known &&& ~~~ (0 : Mask) ≠ 0 := by
  intro q
  have h3 : ((ev ||| epollErr ||| epollHup) &&& known &&& ~~~ (0 : Mask)).getLsbD 3 = (0 : Mask).getLsbD 3 := by rw [q]
  simp only [BitVec.getLsbD_and, BitVec.getLsbD_or, BitVec.getLsbD_not] at h3
  have e1 : epollErr.getLsbD 3 = true := by decide
  have e2 : known.getLsbD 3 = true := by decide
  have e3 : (0 : Mask).getLsbD 3 = false := by decide
  rw [e1, e2, e3] at h3
  simp at h3

theorem setEvent_ok {p : Port} {x : Nat} {ev : Mask} {data : Nat} (h : Base p) (hio : Io p) (hcov : ∀ y, y ≠ x → Cov p y) (hx : x ∈ p.alive)
    (hd : (p.sock x).del = false) (hidle : (p.sock x).status = .idle → x ∈ p.upd ∨ (p.sock x).pend = 0) :
    ∃ p', setEvent p x ev data = some p' ∧ Inv p' ∧ p'.tree = p.tree ∧ p'.io = p.io ∧ p'.alive = p.alive ∧ p'.waiting = p.waiting ∧
      p'.g = p.g ∧ p'.sock = (p.set x { p.sock x with user := ev ||| epollErr ||| epollHup, data := data }).sock := by
  unfold setEvent
  rw [if_pos hx]
  dsimp only
  obtain ⟨s', hs'⟩ : ∃ s', s' = ({ p.sock x with user := ev ||| epollErr ||| epollHup, data := data } : Sock) := ⟨_, rfl⟩
  have hk : s'.key = (p.sock x).key := by rw [hs']
  have hdl : s'.del = (p.sock x).del := by rw [hs']
  have hgr : s'.group = (p.sock x).group := by rw [hs']
  have hst : s'.status = (p.sock x).status := by rw [hs']
  have hpe : s'.pend = (p.sock x).pend := by rw [hs']
  have hus : s'.user = ev ||| epollErr ||| epollHup := by rw [hs']
  have b1 : Base (p.set x s') := base_set' h hk hdl hgr
  have io1 : Io (p.set x s') := by
    refine ⟨hio.nd, fun y => ?_⟩
    by_cases q : y = x
    · subst q
      rw [set_same, hst]
      exact hio.mem y
    · rw [set_ne _ _ q]
      exact hio.mem y
  have c1 : ∀ y, y ≠ x → Cov (p.set x s') y := fun y q => cov_set p.io (hcov y q) q
  have hd1 : ((p.set x s').sock x).del = false := by rw [set_same, hdl, hd]
  by_cases hc : (ev ||| epollErr ||| epollHup) &&& known &&& ~~~ s'.pend = 0
  · rw [if_neg (by simpa [hpe] using hc), ← hs']
    refine ⟨_, rfl, ⟨b1, io1, ?_⟩, rfl, rfl, rfl, rfl, rfl, rfl⟩
    intro y
    by_cases q : y = x
    · subst q
      intro _
      refine ⟨fun q => (by rw [hd1] at q; cases q), fun _ => ?_⟩
      rw [set_same]
      have hcv : covered s' = true := by unfold covered; rw [hus]; simpa using hc
      cases e : (p.sock y).status with
      | pending => exact Or.inr (Or.inr ⟨by rw [hst, e], hcv⟩)
      | cancelled => exact Or.inr (Or.inl (by rw [hst, e]))
      | idle =>
        rcases hidle e with a | a
        · exact Or.inl a
        · rw [hpe, a] at hc
          exact absurd hc (has_err_hup ev)
    · exact c1 y q
  · rw [if_pos (by simpa [hpe] using hc), ← hs']
    obtain ⟨hu, hs, ha, ht, hde, hi, hg, hw⟩ := request_upd b1 hd1
    refine ⟨_, rfl, ⟨request_base b1 hx hd1, ⟨by rw [hi]; exact io1.nd, by rw [hi, ha, hs]; exact io1.mem⟩, ?_⟩, ht, hi, ha, hw, hg, hs⟩
    intro y
    by_cases q : y = x
    · subst q
      intro _
      refine ⟨fun q => (by rw [hs, hd1] at q; cases q), fun _ => Or.inl ?_⟩
      rw [hu]
      split
      · assumption
      · simp
    · exact cov_request b1 hd1 (c1 y q)

/-! ## Adding -/

/-- Nothing changes but the groups and blocks that are not in use. -/
theorem inv_ext {p p' : Port} (h : Inv p) (ha : p'.alive = p.alive) (ht : p'.tree = p.tree) (hu : p'.upd = p.upd) (hd : p'.dels = p.dels)
    (hi : p'.io = p.io) (hs : ∀ y ∈ p.alive, p'.sock y = p.sock y) (hg : GInv p'.g (tokens p)) :
    Inv p' ∧ ∀ k, p'.regs k = p.regs k := by
  have hb : Base p' := by
    refine ⟨by rw [ha]; exact h.base.an, by rw [ht]; exact h.base.tk, ?_, by rw [hu]; exact h.base.un, ?_, by rw [hd]; exact h.base.dn, ?_, ?_⟩
    · intro k x
      rw [ht, ha, h.base.tr]
      constructor
      · rintro ⟨a, b⟩; rw [hs x a]; exact ⟨a, b⟩
      · rintro ⟨a, b⟩; rw [hs x a] at b; exact ⟨a, b⟩
    · intro x hx
      rw [hu] at hx
      have := h.base.um x hx
      rw [ha, hs x this.1]
      exact this
    · intro x hx
      rw [hd] at hx
      have := h.base.dm x hx
      rw [ha, hs x this.1]
      exact this
    · have : tokens p' = tokens p := by
        unfold tokens
        rw [ha]
        apply List.map_congr_left
        intro z hz
        rw [hs z hz]
      rw [this]
      exact hg
  refine ⟨⟨hb, ⟨by rw [hi]; exact h.io.nd, ?_⟩, ?_⟩, ?_⟩
  · intro x
    rw [hi, ha, h.io.mem]
    constructor
    · rintro ⟨a, b⟩; rw [hs x a]; exact ⟨a, b⟩
    · rintro ⟨a, b⟩; rw [hs x a] at b; exact ⟨a, b⟩
  · intro x hx
    rw [ha] at hx
    rw [hs x hx, hu, hd]
    exact h.cov x hx
  · refine regs_congr h.base hb (fun e => by rw [ht]) ?_
    intro e he
    have := (h.base.tr e.1 e.2).1 he
    rw [hs _ this.1]
    exact ⟨rfl, rfl⟩

/-- A system that fails: a request or a cancellation is refused. -/
def Bad (o : Orc) : Prop := ∃ k, o.poll k = .failed ∨ o.cancel k = false

/-- A group was added only if all were full. -/
def GrowOnlyFull (p p' : Port) : Prop :=
  p'.g.q.length = p.g.q.length ∨ (p'.g.q.length = p.g.q.length + 1 ∧ ∀ m ∈ p.g.q, p.g.size m = maxGroup)

theorem sockNew_ok {p : Port} {key : Nat} {o : Orc} (h : Inv p) (hm : ∀ x, o.mem = some x → x ∉ p.alive) (hg : ∀ n, o.group = some n → n ∉ p.g.q) :
    (∃ p', sockNew p key o = some (p', none) ∧ Inv p' ∧ p'.waiting = p.waiting ∧ p'.upd = p.upd ∧ p'.io = p.io ∧ p'.alive = p.alive ∧
      GrowOnlyFull p p' ∧ (∀ k, p'.regs k = p.regs k) ∧ (p.regs key ≠ none ∨ o.base = false ∨ o.group = none ∨ o.mem = none)) ∨
    (∃ p' x n, sockNew p key o = some (p', some x) ∧ Base p' ∧ Io p' ∧ (∀ y, y ≠ x → Cov p' y) ∧ p'.waiting = p.waiting ∧ p'.io = p.io ∧
      p'.alive = x :: p.alive ∧ x ∉ p.alive ∧ p'.tree = (key, x) :: p.tree ∧ p'.sock = (p.set x ⟨key, 0, 0, 0, .idle, false, n⟩).sock ∧
      p'.upd = p.upd ∧ GrowOnlyFull p p' ∧ p.regs key = none) := by
  unfold sockNew
  cases hb : o.base with
  | false =>
    refine Or.inl ⟨p, rfl, h, rfl, rfl, rfl, rfl, Or.inl rfl, fun _ => rfl, Or.inr (Or.inl rfl)⟩
  | true =>
    simp only [Bool.not_true, Bool.false_eq_true, if_false]
    rcases gAcquire_ok h.base.gi hg with ⟨e, hn⟩ | ⟨n, g, e, hgi, hlen⟩
    · rw [e]
      exact Or.inl ⟨p, rfl, h, rfl, rfl, rfl, rfl, Or.inl rfl, fun _ => rfl, Or.inr (Or.inr (Or.inl hn))⟩
    · rw [e]
      dsimp only
      obtain ⟨g', e', hg', hl'⟩ := gRelease_ok hgi (List.Perm.refl _)
      have hlen' : g'.q.length = p.g.q.length ∨ (g'.q.length = p.g.q.length + 1 ∧ ∀ m ∈ p.g.q, p.g.size m = maxGroup) := by
        rw [hl']; exact hlen
      cases hmm : o.mem with
      | none =>
        dsimp only
        rw [e']
        obtain ⟨a, b⟩ := inv_ext (p' := { p with g := g' }) h rfl rfl rfl rfl rfl (fun _ _ => rfl) hg'
        exact Or.inl ⟨_, rfl, a, rfl, rfl, rfl, rfl, hlen', b, Or.inr (Or.inr (Or.inr rfl))⟩
      | some x =>
        have hxa := hm x hmm
        dsimp only
        split
        · rename_i hk
          rw [show ((({ p with g := g, alive := x :: p.alive } : Port).set x ⟨key, 0, 0, 0, .idle, false, n⟩).g) = g from rfl, e']
          dsimp only
          have hal : (x :: p.alive).filter (fun y => y ≠ x) = p.alive := by
            rw [List.filter_cons]
            simp only [ne_eq, not_true_eq_false, decide_false, Bool.false_eq_true, if_false]
            exact filter_self hxa
          refine Or.inl ⟨_, rfl, ?_⟩
          have := inv_ext (p' := { (({ p with g := g, alive := x :: p.alive } : Port).set x ⟨key, 0, 0, 0, .idle, false, n⟩) with
            g := g', alive := (x :: p.alive).filter (fun y => y ≠ x) }) h hal rfl rfl rfl rfl (fun y hy => ?_) hg'
          · refine ⟨this.1, rfl, rfl, rfl, hal, hlen', this.2, Or.inl ?_⟩
            intro q
            rw [regs_none h.base] at q
            rw [List.mem_map] at hk
            obtain ⟨a, ha, rfl⟩ := hk
            exact q a.2 ha
          · exact set_ne _ _ (fun q => hxa (by rw [← q]; exact hy))
        · rename_i hk
          refine Or.inr ⟨_, x, n, rfl, ?_, ?_, ?_, rfl, rfl, rfl, hxa, rfl, rfl, rfl, hlen, ?_⟩
          · have hs : ∀ y ∈ p.alive, (p.set x ⟨key, 0, 0, 0, .idle, false, n⟩).sock y = p.sock y :=
              fun y hy => set_ne _ _ (fun q => hxa (by rw [← q]; exact hy))
            refine ⟨List.nodup_cons.2 ⟨hxa, h.base.an⟩, ?_, ?_, h.base.un, ?_, h.base.dn, ?_, ?_⟩
            · show (((key, x) :: p.tree).map (·.1)).Nodup
              rw [List.map_cons, List.nodup_cons]
              exact ⟨hk, h.base.tk⟩
            · intro k y
              show (k, y) ∈ (key, x) :: p.tree ↔ y ∈ x :: p.alive ∧ ((p.set x ⟨key, 0, 0, 0, .idle, false, n⟩).sock y).del = false ∧
                ((p.set x ⟨key, 0, 0, 0, .idle, false, n⟩).sock y).key = k
              rw [List.mem_cons, List.mem_cons]
              by_cases q : y = x
              · subst q
                rw [set_same]
                have : (k, y) ∉ p.tree := fun q => hxa ((h.base.tr k y).1 q).1
                simp only [this, or_false, Prod.mk.injEq, and_true, true_or, true_and]
                exact eq_comm
              · rw [set_ne _ _ q, h.base.tr]
                simp [q]
            · intro y hy
              have := h.base.um y hy
              show y ∈ x :: p.alive ∧ ((p.set x ⟨key, 0, 0, 0, .idle, false, n⟩).sock y).del = false
              rw [hs y this.1]
              exact ⟨List.mem_cons_of_mem _ this.1, this.2⟩
            · intro y hy
              have := h.base.dm y hy
              show y ∈ x :: p.alive ∧ ((p.set x ⟨key, 0, 0, 0, .idle, false, n⟩).sock y).del = true
              rw [hs y this.1]
              exact ⟨List.mem_cons_of_mem _ this.1, this.2⟩
            · have : p.alive.map (fun y => ((p.set x ⟨key, 0, 0, 0, .idle, false, n⟩).sock y).group) = tokens p := by
                unfold tokens
                apply List.map_congr_left
                intro y hy
                rw [hs y hy]
              show GInv g ((x :: p.alive).map (fun y => ((p.set x ⟨key, 0, 0, 0, .idle, false, n⟩).sock y).group))
              rw [List.map_cons, this, set_same]
              exact hgi
          · refine ⟨h.io.nd, fun y => ?_⟩
            show y ∈ p.io ↔ y ∈ x :: p.alive ∧ ((p.set x ⟨key, 0, 0, 0, .idle, false, n⟩).sock y).status ≠ .idle
            by_cases q : y = x
            · subst q
              rw [set_same, h.io.mem]
              simp [hxa]
            · rw [set_ne _ _ q, h.io.mem, List.mem_cons]
              simp [q]
          · intro y q hy
            have hy' : y ∈ p.alive := (List.mem_cons.1 hy).resolve_left q
            have := h.cov y hy'
            show (((p.set x ⟨key, 0, 0, 0, .idle, false, n⟩).sock y).del = true →
                y ∈ p.dels ∧ ((p.set x ⟨key, 0, 0, 0, .idle, false, n⟩).sock y).status ≠ .idle) ∧
              (((p.set x ⟨key, 0, 0, 0, .idle, false, n⟩).sock y).del = false → y ∈ p.upd ∨
                ((p.set x ⟨key, 0, 0, 0, .idle, false, n⟩).sock y).status = .cancelled ∨
                (((p.set x ⟨key, 0, 0, 0, .idle, false, n⟩).sock y).status = .pending ∧
                  covered ((p.set x ⟨key, 0, 0, 0, .idle, false, n⟩).sock y) = true))
            rw [set_ne _ _ q]
            exact this
          · rw [regs_none h.base]
            exact fun y hy => hk (List.mem_map.2 ⟨_, hy, rfl⟩)

/-- What an operation leaves: the invariant, and more. -/
structure Post (p p' : Port) : Prop where
  inv : Inv p'
  grow : GrowOnlyFull p p'
  al : p'.alive.length ≤ p.alive.length + 1

theorem nodup_le {l l' : List Nat} (h : l.Nodup) (hs : ∀ x ∈ l, x ∈ l') : l.length ≤ l'.length := (List.subperm_of_subset h hs).length_le

theorem updateIfPolling_upd {p : Port} {o : Orc} {p' : Port} (h : updateIfPolling p o = some p') : p.upd = [] → p'.upd = [] := by
  intro hu
  unfold updateIfPolling at h
  rw [hu] at h
  split at h
  · have : updateEvents ([] : List Nat).length.succ p o = some (p, true) := by
      unfold updateEvents
      rw [hu]
    rw [show ([] : List Nat).length + 1 = ([] : List Nat).length.succ from rfl, this] at h
    simp only [Option.some.injEq] at h
    rw [← h, hu]
  · simp only [Option.some.injEq] at h
    rw [← h, hu]

theorem ctlAdd_ok {p : Port} {key : Nat} {ev : Mask} {data : Nat} {o : Orc} (h : Inv p) (hm : ∀ x, o.mem = some x → x ∉ p.alive)
    (hg : ∀ n, o.group = some n → n ∉ p.g.q) :
    ∃ p' b, ctlAdd p key ev data o = some (p', b) ∧ Post p p' ∧ p'.waiting = p.waiting ∧
      (if b then p.regs key = none ∧ Drop (upd1 p.regs key (some (ev ||| epollErr ||| epollHup, data))) p'.regs o
        else (∀ k, p'.regs k = p.regs k) ∧ (p.regs key ≠ none ∨ o.base = false ∨ o.group = none ∨ o.mem = none)) ∧
      (¬ Bad o → (0 < p.waiting → p.upd = []) → (0 < p'.waiting → p'.upd = [])) := by
  unfold ctlAdd
  rcases sockNew_ok (key := key) h hm hg with ⟨p1, e, i, w, u, _, a, gr, r, f⟩ | ⟨p1, x, n, e, b1, io1, c1, w1, i1, a1, xa, t1, s1, u1, g1, r1⟩
  · rw [e]
    refine ⟨p1, false, rfl, ⟨i, gr, by rw [a]; omega⟩, w, ⟨r, f⟩, fun _ q => by rw [w, u]; exact q⟩
  · rw [e]
    dsimp only
    have hs1 : p1.sock x = ⟨key, 0, 0, 0, .idle, false, n⟩ := by rw [s1, set_same]
    obtain ⟨p2, e2, i2, t2, io2, a2, w2, g2, s2⟩ := setEvent_ok (ev := ev) (data := data) b1 io1 c1 (by rw [a1]; simp) (by rw [hs1])
      (fun _ => Or.inr (by rw [hs1]))
    rw [e2]
    dsimp only
    obtain ⟨p3, e3, i3, ef3, c3⟩ := updateIfPolling_ok (o := o) i2
    rw [e3]
    refine ⟨p3, true, rfl, ⟨i3, ?_, ?_⟩, by rw [ef3.waiting, w2, w1], ⟨r1, ?_⟩, ?_⟩
    · unfold GrowOnlyFull
      rw [ef3.len, g2]
      exact g1
    · have := nodup_le i3.base.an ef3.al
      rw [a2, a1, List.length_cons] at this
      exact this
    · have hdrop := ef3.drop i2.base i3.base
      have hr : ∀ k, p2.regs k = upd1 p.regs key (some (ev ||| epollErr ||| epollHup, data)) k := by
        intro k
        unfold upd1
        by_cases q : k = key
        · rw [if_pos q, q, regs_some i2.base]
          refine ⟨x, by rw [t2, t1]; simp, ?_, ?_⟩ <;> rw [s2, set_same]
        · rw [if_neg q]
          have hne : ∀ y, (k, y) ∈ p.tree → y ≠ x := fun y hy q => xa (by rw [← q]; exact ((h.base.tr k y).1 hy).1)
          have hsy : ∀ y, y ≠ x → p2.sock y = p.sock y := by
            intro y q
            rw [s2, set_ne _ _ q, s1, set_ne _ _ q]
          cases er : p.regs k with
          | none =>
            rw [regs_none h.base] at er
            rw [regs_none i2.base]
            intro y hy
            rw [t2, t1, List.mem_cons] at hy
            rcases hy with hy | hy
            · rw [Prod.mk.injEq] at hy
              exact q hy.1
            · exact er y hy
          | some v =>
            obtain ⟨m, d⟩ := v
            rw [regs_some h.base] at er
            obtain ⟨y, hy, rfl, rfl⟩ := er
            rw [regs_some i2.base]
            refine ⟨y, by rw [t2, t1]; exact List.mem_cons_of_mem _ hy, ?_, ?_⟩ <;> rw [hsy y (hne y hy)]
      intro k
      rw [← hr k]
      exact hdrop k
    · intro hbad _ hw
      rw [ef3.waiting] at hw
      rcases c3 hw with q | q
      · exact q
      · exact absurd q hbad

/-! ## Changing and deleting -/

theorem ctlMod_ok {p : Port} {key : Nat} {ev : Mask} {data : Nat} {o : Orc} (h : Inv p) :
    ∃ p' b, ctlMod p key ev data o = some (p', b) ∧ Post p p' ∧ p'.waiting = p.waiting ∧ (b = true ↔ p.regs key ≠ none) ∧
      (if b then Drop (upd1 p.regs key (some (ev ||| epollErr ||| epollHup, data))) p'.regs o else p' = p) ∧
      (¬ Bad o → (0 < p.waiting → p.upd = []) → (0 < p'.waiting → p'.upd = [])) := by
  unfold ctlMod
  cases hf : p.find key with
  | none =>
    refine ⟨p, false, rfl, ⟨h, Or.inl rfl, by omega⟩, rfl, ?_, rfl, fun _ q => q⟩
    unfold Port.regs
    rw [hf]
    simp
  | some x =>
    have hxt := (find_iff h.base key x).1 hf
    obtain ⟨hxa, hxd, hxk⟩ := (h.base.tr key x).1 hxt
    dsimp only
    obtain ⟨p2, e2, i2, t2, io2, a2, w2, g2, s2⟩ := setEvent_ok (ev := ev) (data := data) h.base h.io (fun y _ => h.cov y) hxa hxd
      (fun q => by
        rcases (h.cov x hxa).2 hxd with a | a | a
        · exact Or.inl a
        · rw [q] at a; cases a
        · rw [q] at a; cases a.1)
    rw [e2]
    dsimp only
    obtain ⟨p3, e3, i3, ef3, c3⟩ := updateIfPolling_ok (o := o) i2
    rw [e3]
    refine ⟨p3, true, rfl, ⟨i3, ?_, ?_⟩, by rw [ef3.waiting, w2], ?_, ?_, ?_⟩
    · unfold GrowOnlyFull
      rw [ef3.len, g2]
      exact Or.inl rfl
    · have := nodup_le i3.base.an ef3.al
      rw [a2] at this
      omega
    · unfold Port.regs
      rw [hf]
      simp
    · have hdrop := ef3.drop i2.base i3.base
      have hr : ∀ k, p2.regs k = upd1 p.regs key (some (ev ||| epollErr ||| epollHup, data)) k := by
        intro k
        unfold upd1
        by_cases q : k = key
        · rw [if_pos q, q, regs_some i2.base]
          refine ⟨x, by rw [t2]; exact hxt, ?_, ?_⟩ <;> rw [s2, set_same]
        · rw [if_neg q]
          have hsy : ∀ y, (k, y) ∈ p.tree → p2.sock y = p.sock y := by
            intro y hy
            have hne : y ≠ x := by
              rintro rfl
              exact q (((h.base.tr k y).1 hy).2.2.symm.trans hxk)
            rw [s2, set_ne _ _ hne]
          cases er : p.regs k with
          | none =>
            rw [regs_none h.base] at er
            rw [regs_none i2.base, t2]
            exact er
          | some v =>
            obtain ⟨m, d⟩ := v
            rw [regs_some h.base] at er
            obtain ⟨y, hy, rfl, rfl⟩ := er
            rw [regs_some i2.base]
            refine ⟨y, by rw [t2]; exact hy, ?_, ?_⟩ <;> rw [hsy y hy]
      show Drop _ _ _
      intro k
      rw [← hr k]
      exact hdrop k
    · intro hbad _ hw
      rw [ef3.waiting] at hw
      rcases c3 hw with q | q
      · exact q
      · exact absurd q hbad

/-- A deleted block is not registered any more, and nothing else changes. -/
theorem regs_removed {p p' : Port} {key x : Nat} (h : Base p) (h' : Base p') (hx : (key, x) ∈ p.tree) (ht : p'.tree = p.tree.filter (fun e => e.2 ≠ x))
    (hk : Keep p p') (k : Nat) : p'.regs k = upd1 p.regs key none k := by
  have hkey := ((h.tr key x).1 hx).2.2
  unfold upd1
  by_cases q : k = key
  · rw [if_pos q, regs_none h']
    intro y hy
    rw [ht, List.mem_filter] at hy
    have : (key, x) = (k, y) := List.inj_on_of_nodup_map h.tk hx hy.1 q.symm
    rw [Prod.mk.injEq] at this
    rw [this.2] at hy
    simp at hy
  · rw [if_neg q]
    cases er : p.regs k with
    | none =>
      rw [regs_none h] at er
      rw [regs_none h', ht]
      exact fun y hy => er y (List.mem_filter.1 hy).1
    | some v =>
      obtain ⟨m, d⟩ := v
      rw [regs_some h] at er
      obtain ⟨y, hy, rfl, rfl⟩ := er
      rw [regs_some h', ht]
      refine ⟨y, List.mem_filter.2 ⟨hy, ?_⟩, (hk y).2.1, (hk y).2.2⟩
      have : y ≠ x := by
        rintro rfl
        exact q (((h.tr k y).1 hy).2.2.symm.trans hkey)
      simpa using this

theorem ctlDel_ok {p : Port} {key : Nat} {o : Orc} (h : Inv p) :
    ∃ p' b, ctlDel p key o = some (p', b) ∧ Post p p' ∧ p'.waiting = p.waiting ∧ (b = true ↔ p.regs key ≠ none) ∧
      (if b then ∀ k, p'.regs k = upd1 p.regs key none k else p' = p) ∧ ((0 < p.waiting → p.upd = []) → (0 < p'.waiting → p'.upd = [])) := by
  unfold ctlDel
  cases hf : p.find key with
  | none =>
    refine ⟨p, false, rfl, ⟨h, Or.inl rfl, by omega⟩, rfl, ?_, rfl, fun q => q⟩
    unfold Port.regs
    rw [hf]
    simp
  | some x =>
    have hxt := (find_iff h.base key x).1 hf
    obtain ⟨hxa, hxd, hxk⟩ := (h.base.tr key x).1 hxt
    dsimp only
    obtain ⟨p', e, i, t, io, u, w, k, al, hl, _⟩ := sockDelete_inv o.cancel h.base h.io (fun y _ => h.cov y) hxa
    rw [e]
    refine ⟨p', true, rfl, ⟨i, Or.inl hl, ?_⟩, w, ?_, ?_, ?_⟩
    · have := nodup_le i.base.an (fun y hy => ((al y).1 hy).1)
      omega
    · unfold Port.regs
      rw [hf]
      simp
    · exact regs_removed h.base i.base hxt t k
    · intro q hw
      rw [w] at hw
      rw [u, q hw]
      rfl

end Verif.Wepoll.Ep
