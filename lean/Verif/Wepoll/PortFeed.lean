import Verif.Wepoll.PortStep

/-!
# Sockets of an epoll set and their poll requests: packets and waiting
-/

namespace Verif.Wepoll.Ep

/-! ## Specification -/

/-- What is registered. -/
abbrev Regs := Nat → Option (Mask × Nat)

/-- What a packet for the socket `key` does: if it says that the socket was closed, the registration goes; if it carries requested
events, these are reported with the data of the registration, and a one-time registration asks for nothing any more. -/
def handle (r : Regs) (key : Nat) (k : Packet) : Regs × Option Event :=
  match r key with
  | none => (r, none)
  | some (m, d) =>
    match packetEvents k with
    | none => (upd1 r key none, none)
    | some v =>
      if v &&& m = 0 then (r, none)
      else (upd1 r key (some (if has m epollOneshot then 0 else m, d)), some (d, v &&& m))

/-- Packets for sockets, one after the other; `none` stands for a socket that was removed before. -/
def deliver (r : Regs) : List (Option Nat × Packet) → Regs × List Event
  | [] => (r, [])
  | (none, _) :: l => deliver r l
  | (some key, k) :: l =>
    ((deliver (handle r key k).1 l).1, (handle r key k).2.toList ++ (deliver (handle r key k).1 l).2)

/-- The socket a request belongs to. -/
def Port.owner (p : Port) (x : Nat) : Option Nat := if (p.sock x).del then none else some (p.sock x).key

/-! ## A packet -/

theorem upd1_same (r : Regs) (k : Nat) : (fun z => upd1 r k (r k) z) = r := by
  funext z
  unfold upd1
  split
  · rename_i e; rw [e]
  · rfl

/-- The state after the first lines of `sock_feed_event`. -/
theorem feed_start {p : Port} {x : Nat} (h : Inv p) (hx : x ∈ p.io) :
    ∃ q, q = ({ p with io := p.io.filter (fun y => y ≠ x) } : Port).set x { p.sock x with status := .idle, pend := 0 } ∧ Base q ∧ Io q ∧
      (∀ y, y ≠ x → Cov q y) ∧ Keep p q ∧ q.tree = p.tree ∧ q.upd = p.upd ∧ q.alive = p.alive ∧ q.waiting = p.waiting ∧ q.g = p.g ∧
      q.io = p.io.filter (fun y => y ≠ x) ∧ (q.sock x).del = (p.sock x).del ∧ (q.sock x).status = .idle ∧
      (∀ y, y ≠ x → q.sock y = p.sock y) := by
  refine ⟨_, rfl, base_set _ h.base rfl rfl rfl, ?_, ?_, keep_set (p := { p with io := p.io.filter (fun y => y ≠ x) }) rfl rfl rfl, rfl, rfl, rfl,
    rfl, rfl, rfl, by rw [set_same], by rw [set_same], fun y q => set_ne _ _ q⟩
  · refine ⟨h.io.nd.filter _, fun y => ?_⟩
    show y ∈ p.io.filter (fun y => y ≠ x) ↔ y ∈ p.alive ∧ _
    rw [mem_out]
    by_cases q : y = x
    · subst q
      rw [set_same]
      simp
    · rw [set_ne _ _ q, h.io.mem]
      simp [q]
  · exact fun y q => cov_set _ (h.cov y) q

theorem feedEnd_ok {q : Port} {x : Nat} (v : Mask) (b : Base q) (hio : Io q) (hc : ∀ y, y ≠ x → Cov q y) (hx : x ∈ q.alive)
    (hd : (q.sock x).del = false) :
    Inv (feedEnd q x v).1 ∧ (feedEnd q x v).1.tree = q.tree ∧ (feedEnd q x v).1.io = q.io ∧ (feedEnd q x v).1.alive = q.alive ∧
      (feedEnd q x v).1.waiting = q.waiting ∧ (feedEnd q x v).1.g = q.g ∧ (∀ y, y ≠ x → (feedEnd q x v).1.sock y = q.sock y) ∧
      ((feedEnd q x v).1.sock x).data = (q.sock x).data ∧
      ((feedEnd q x v).1.sock x).user = (if v &&& (q.sock x).user = 0 then (q.sock x).user
        else if has (q.sock x).user epollOneshot then 0 else (q.sock x).user) ∧
      (feedEnd q x v).2 = (if v &&& (q.sock x).user = 0 then none else some ((q.sock x).data, v &&& (q.sock x).user)) := by
  obtain ⟨hu, hs, ha, ht, hde, hi, hg, hw⟩ := request_upd b hd
  have hxu : x ∈ (q.request x).upd := by
    rw [hu]
    split
    · assumption
    · simp
  have b1 := request_base b hx hd
  have io1 : Io (q.request x) := ⟨by rw [hi]; exact hio.nd, by rw [hi, ha, hs]; exact hio.mem⟩
  have c1 : ∀ y, Cov (q.request x) y := by
    intro y
    by_cases e : y = x
    · subst e
      intro _
      exact ⟨fun e => (by rw [hs, hd] at e; cases e), fun _ => Or.inl hxu⟩
    · exact cov_request b hd (hc y e)
  unfold feedEnd
  dsimp only
  rw [hs]
  by_cases hv : v &&& (q.sock x).user = 0
  · simp only [hv, if_true]
    exact ⟨⟨b1, io1, c1⟩, ht, hi, ha, hw, hg, fun y _ => by rw [hs], by rw [hs], by rw [hs], trivial⟩
  · simp only [hv, if_false]
    cases ho : has (q.sock x).user epollOneshot with
    | false =>
      simp only [Bool.false_eq_true, if_false]
      exact ⟨⟨b1, io1, c1⟩, ht, hi, ha, hw, hg, fun y _ => by rw [hs], by rw [hs], by rw [hs], trivial⟩
    | true =>
      simp only [if_true]
      have hsx : (q.request x).sock x = q.sock x := by rw [hs]
      refine ⟨⟨base_set' b1 (by rw [hsx]) (by rw [hsx]) (by rw [hsx]), ⟨io1.nd, fun y => ?_⟩, fun y => ?_⟩, ht, hi, ha, hw, hg, ?_, by rw [set_same],
        by rw [set_same], trivial⟩
      · by_cases e : y = x
        · subst e
          have := io1.mem y
          rw [hsx] at this
          rw [set_same]
          exact this
        · rw [set_ne _ _ e]
          exact io1.mem y
      · by_cases e : y = x
        · subst e
          intro _
          rw [set_same]
          exact ⟨fun e => (by rw [show ({ q.sock y with user := 0 } : Sock).del = (q.sock y).del from rfl, hd] at e; cases e), fun _ => Or.inl hxu⟩
        · exact cov_set _ (c1 y) e
      · intro y e
        rw [set_ne _ _ e, hs]

theorem feed_ok {p : Port} {x : Nat} {k : Packet} {o : Orc} (h : Inv p) (hx : x ∈ p.io) :
    ∃ p' e, feed p x k o = some (p', e) ∧ Inv p' ∧ p'.io = p.io.filter (fun y => y ≠ x) ∧ p'.waiting = p.waiting ∧
      p'.g.q.length = p.g.q.length ∧ (∀ y ∈ p'.alive, y ∈ p.alive) ∧ (∀ y, y ≠ x → p'.sock y = p.sock y) ∧
      (match p.owner x with
        | none => e = none ∧ p'.regs = p.regs
        | some key => p.regs key ≠ none ∧ (p'.regs, e) = handle p.regs key k) := by
  have hxa := ((h.io.mem x).1 hx).1
  obtain ⟨q, hq, b, io, c, ke, t, u, al, w, g, ioq, dl, st, so⟩ := feed_start h hx
  have hxq : x ∈ q.alive := by rw [al]; exact hxa
  unfold feed
  rw [if_pos hxa]
  dsimp only
  rw [← hq]
  unfold Port.owner
  rw [dl]
  cases hd : (p.sock x).del with
  | true =>
    simp only [if_true]
    obtain ⟨p', e, i, t', io', u', w', k', al', hl, so'⟩ := sockDelete_inv o.cancel b io c hxq
    rw [e]
    refine ⟨p', none, rfl, i, by rw [io', ioq], by rw [w', w], by rw [hl, g], ?_, fun y hy => by rw [so' y hy, so y hy], rfl, ?_⟩
    · intro y hy
      rw [← al]
      exact ((al' y).1 hy).1
    · funext kk
      refine regs_congr h.base i.base ?_ ?_ kk
      · intro a
        rw [t', t, List.mem_filter]
        constructor
        · exact fun q => q.1
        · intro ha
          refine ⟨ha, ?_⟩
          have : a.2 ≠ x := by
            intro q
            have := ((h.base.tr a.1 a.2).1 ha).2.1
            rw [q, hd] at this
            cases this
          simpa using this
      · intro a _
        have := (ke.trans k') a.2
        exact this.2
  | false =>
    simp only [Bool.false_eq_true, if_false]
    have hxt : ((p.sock x).key, x) ∈ p.tree := (h.base.tr _ _).2 ⟨hxa, hd, rfl⟩
    have hreg : p.regs (p.sock x).key = some ((p.sock x).user, (p.sock x).data) := (regs_some h.base _ _ _).2 ⟨x, hxt, rfl, rfl⟩
    have hux := (ke x).2.1
    have hdx := (ke x).2.2
    cases hk : packetEvents k with
    | none =>
      dsimp only
      obtain ⟨p', e, i, t', io', u', w', k', al', hl, so'⟩ := sockDelete_inv o.cancel b io c hxq
      rw [e]
      refine ⟨p', none, rfl, i, by rw [io', ioq], by rw [w', w], by rw [hl, g], ?_, fun y hy => by rw [so' y hy, so y hy], by rw [hreg]; simp, ?_⟩
      · intro y hy
        rw [← al]
        exact ((al' y).1 hy).1
      · unfold handle
        rw [hreg, hk]
        dsimp only
        rw [Prod.mk.injEq]
        refine ⟨?_, rfl⟩
        funext kk
        exact regs_removed h.base i.base hxt (by rw [t', t]) (ke.trans k') kk
    | some v =>
      dsimp only
      obtain ⟨i, t', io', al', w', g', so', da, us, ev⟩ := feedEnd_ok v b io c hxq (by rw [dl, hd])
      refine ⟨(feedEnd q x v).1, (feedEnd q x v).2, rfl, i, by rw [io', ioq], by rw [w', w], by rw [g', g], ?_, fun y hy => by rw [so' y hy, so y hy], by rw [hreg]; simp, ?_⟩
      · intro y hy
        rw [al', al] at hy
        exact hy
      · unfold handle
        rw [hreg, hk]
        dsimp only
        rw [hux] at us ev
        rw [hdx] at ev da
        have hregs : (feedEnd q x v).1.regs = upd1 p.regs (p.sock x).key (some (((feedEnd q x v).1.sock x).user, (p.sock x).data)) := by
          funext kk
          unfold upd1
          by_cases e : kk = (p.sock x).key
          · rw [if_pos e, e, regs_some i.base]
            exact ⟨x, by rw [t', t]; exact hxt, rfl, da⟩
          · rw [if_neg e]
            cases er : p.regs kk with
            | none =>
              rw [regs_none h.base] at er
              rw [regs_none i.base, t', t]
              exact er
            | some r =>
              obtain ⟨m, d⟩ := r
              rw [regs_some h.base] at er
              obtain ⟨y, hy, rfl, rfl⟩ := er
              have hne : y ≠ x := by
                rintro rfl
                exact e ((h.base.tr kk y).1 hy).2.2.symm
              rw [regs_some i.base]
              refine ⟨y, by rw [t', t]; exact hy, ?_, ?_⟩ <;> rw [so' y hne, so y hne]
        rw [hregs, us, ev]
        by_cases hv : v &&& (p.sock x).user = 0
        · simp only [hv, if_true]
          rw [← hreg, Prod.mk.injEq]
          exact ⟨upd1_same _ _, rfl⟩
        · simp only [hv, if_false]

/-! ## A list of packets -/

theorem feedAll_ok {o : Orc} : ∀ (l : List (Nat × Packet)) {p : Port}, Inv p → (l.map (·.1)).Nodup → (∀ x ∈ l.map (·.1), x ∈ p.io) →
    ∃ p' es, feedAll p o l = some (p', es) ∧ Inv p' ∧ p'.waiting = p.waiting ∧ p'.g.q.length = p.g.q.length ∧ (∀ y ∈ p'.alive, y ∈ p.alive) ∧
      (p'.regs, es) = deliver p.regs (l.map fun (x, k) => (p.owner x, k)) := by
  intro l
  induction l with
  | nil =>
    intro p h _ _
    exact ⟨p, [], rfl, h, rfl, rfl, fun _ q => q, rfl⟩
  | cons a l ih =>
    intro p h hn hm
    obtain ⟨x, k⟩ := a
    rw [List.map_cons, List.nodup_cons] at hn
    obtain ⟨p1, e, he, i, io, w, gl, al, so, sp⟩ := feed_ok (k := k) (o := o) h (hm x (by simp))
    unfold feedAll
    rw [he]
    dsimp only
    obtain ⟨p2, es, he2, i2, w2, gl2, al2, sp2⟩ := ih i hn.2 (by
      intro y hy
      rw [io, mem_out]
      refine ⟨hm y (by simp only [List.map_cons, List.mem_cons]; exact Or.inr hy), ?_⟩
      rintro rfl
      exact hn.1 hy)
    rw [he2]
    refine ⟨p2, _, rfl, i2, by rw [w2, w], by rw [gl2, gl], fun y hy => al y (al2 y hy), ?_⟩
    have hown : (l.map fun (z, j) => (p1.owner z, j)) = l.map fun (z, j) => (p.owner z, j) := by
      apply List.map_congr_left
      intro b hb
      obtain ⟨y, j⟩ := b
      have hne : y ≠ x := by
        rintro rfl
        exact hn.1 (List.mem_map.2 ⟨_, hb, rfl⟩)
      show (p1.owner y, j) = (p.owner y, j)
      unfold Port.owner
      rw [so y hne]
    rw [hown] at sp2
    rw [List.map_cons]
    dsimp only
    cases ho : p.owner x with
    | none =>
      rw [ho] at sp
      dsimp only at sp
      unfold deliver
      rw [sp.1, sp.2.symm]
      exact sp2
    | some key =>
      rw [ho] at sp
      dsimp only at sp
      have h1 : p1.regs = (handle p.regs key k).1 := congrArg Prod.fst sp.2
      have h2 : e = (handle p.regs key k).2 := congrArg Prod.snd sp.2
      have h3 := congrArg Prod.fst sp2
      have h4 := congrArg Prod.snd sp2
      dsimp only at h3 h4
      unfold deliver
      rw [h3, h4, h1, h2]

/-! ## Waiting -/

/-- Registrations of sockets that the system calls closed may go, with two answers of the system. -/
def Drop2 (r r' : Regs) (o o' : Orc) : Prop := ∀ k, r' k = r k ∨ (r' k = none ∧ (o.poll k = .closed ∨ o'.poll k = .closed))

theorem inv_waiting {p : Port} (h : Inv p) (n : Nat) : Inv { p with waiting := n } :=
  ⟨⟨h.base.an, h.base.tk, h.base.tr, h.base.un, h.base.um, h.base.dn, h.base.dm, h.base.gi⟩, ⟨h.io.nd, h.io.mem⟩, h.cov⟩

theorem drop_right {p p' : Port} {o o' : Orc} (d : Drop p.regs p'.regs o') : Drop2 p.regs p'.regs o o' :=
  fun k => (d k).imp id fun q => ⟨q.1, Or.inr q.2⟩

theorem waitTurn_ok {p : Port} {o o' : Orc} (h : Inv p) :
    ∃ p' a, waitTurn p o o' = some (p', a) ∧ Post p p' ∧ a.events = [] ∧ Drop2 p.regs p'.regs o o' ∧
      p'.waiting = p.waiting + (if a.ok then 1 else 0) ∧ (a.ok = false → Bad o) ∧ (a.ok = true → p'.upd = []) ∧
      (∀ x ∈ p'.alive, x ∈ p.alive) ∧ p'.g.q.length = p.g.q.length := by
  unfold waitTurn pollBegin
  obtain ⟨p1, b, e, i, ef, c⟩ := updateEvents_ok (p.upd.length + 1) (o := o) h (Nat.lt_succ_self _)
  rw [e]
  have d1 := ef.drop h.base i.base
  cases b with
  | true =>
    dsimp only
    simp only [if_true] at c
    refine ⟨_, _, rfl, ⟨inv_waiting i _, Or.inl ef.len, ?_⟩, rfl, fun k => (d1 k).imp id fun q => ⟨q.1, Or.inl q.2⟩, ?_, fun q => (by cases q), fun _ => c,
      ef.al, ef.len⟩
    · have := nodup_le i.base.an ef.al
      show p1.alive.length ≤ _
      omega
    · show p1.waiting + 1 = _
      rw [ef.waiting]
      simp
  | false =>
    dsimp only
    simp only [Bool.false_eq_true, if_false] at c
    obtain ⟨p2, e2, i2, ef2, _⟩ := updateIfPolling_ok (o := o') i
    rw [e2]
    have d2 := ef2.drop i.base i2.base
    have al2 : ∀ x ∈ p2.alive, x ∈ p.alive := fun x hx => ef.al x (ef2.al x hx)
    refine ⟨p2, ⟨false, []⟩, rfl, ⟨i2, Or.inl (ef2.len.trans ef.len), ?_⟩, rfl, ?_, ?_, fun _ => c, fun q => (by cases q), al2, ef2.len.trans ef.len⟩
    · have := nodup_le i2.base.an al2
      omega
    · intro k
      rcases d2 k with q | q
      · rcases d1 k with q' | q'
        · exact Or.inl (q.trans q')
        · exact Or.inr ⟨q.trans q'.1, Or.inl q'.2⟩
      · exact Or.inr ⟨q.1, Or.inr q.2⟩
    · rw [ef2.waiting, ef.waiting]
      simp

/-- What the operations do to the registrations and what they answer. -/
def Spec (r : Regs) (owner : Nat → Option Nat) : Op → Ans → Regs → Prop
  | .add key ev data o, a, r' =>
    a.events = [] ∧
      if a.ok then r key = none ∧ Drop (upd1 r key (some (ev ||| epollErr ||| epollHup, data))) r' o
      else r' = r ∧ (r key ≠ none ∨ o.base = false ∨ o.group = none ∨ o.mem = none)
  | .mod key ev data o, a, r' =>
    a.events = [] ∧ (a.ok = true ↔ r key ≠ none) ∧
      if a.ok then Drop (upd1 r key (some (ev ||| epollErr ||| epollHup, data))) r' o else r' = r
  | .del key _, a, r' => a.events = [] ∧ (a.ok = true ↔ r key ≠ none) ∧ r' = upd1 r key none
  | .wait o o', a, r' => a.events = [] ∧ (a.ok = false → Bad o) ∧ Drop2 r r' o o'
  | .packets l _ o o', a, r' =>
    ∃ r1, (r1, a.events) = deliver r (l.map fun (x, k) => (owner x, k)) ∧ (a.ok = false → Bad o) ∧ Drop2 r1 r' o o'

/-- The systems of an operation. -/
def Op.bad : Op → Prop
  | .add _ _ _ o => Bad o
  | .mod _ _ _ o => Bad o
  | .del _ o => Bad o
  | .wait o o' => Bad o ∨ Bad o'
  | .packets _ _ o o' => Bad o ∨ Bad o'

theorem packets_ok {p : Port} {l : List (Nat × Packet)} {stop : Bool} {o o' : Orc} (h : Inv p) (hl : (l.map (·.1)).Nodup)
    (hm : ∀ x ∈ l.map (·.1), x ∈ p.io) (hw : 0 < p.waiting) :
    ∃ p' a, exec p (.packets l stop o o') = some (p', a) ∧ Post p p' ∧ Spec p.regs p.owner (.packets l stop o o') a p'.regs ∧
      (¬ (Bad o ∨ Bad o') → (0 < p.waiting → p.upd = []) → (0 < p'.waiting → p'.upd = [])) := by
  unfold exec
  dsimp only
  unfold pollEnd
  rw [if_pos hw]
  obtain ⟨p1, es, e1, i1, w1, g1, al1, s1⟩ := feedAll_ok (o := o) l (inv_waiting h (p.waiting - 1)) hl hm
  rw [e1]
  have al1' : ∀ y ∈ p1.alive, y ∈ p.alive := al1
  have s1' : (p1.regs, es) = deliver p.regs (l.map fun (x, k) => (p.owner x, k)) := s1
  have upd2 : ∀ {a : Bool}, ∃ p', updateIfPolling p1 o' = some p' ∧ Post p p' ∧ Spec p.regs p.owner (.packets l stop o o') ⟨true, es⟩ p'.regs ∧
      (¬ (Bad o ∨ Bad o') → (0 < p.waiting → p.upd = []) → (0 < p'.waiting → p'.upd = [])) := by
    intro _
    obtain ⟨p2, e2, i2, ef2, c2⟩ := updateIfPolling_ok (o := o') i1
    refine ⟨p2, e2, ⟨i2, Or.inl (ef2.len.trans g1), ?_⟩, ⟨p1.regs, s1', fun q => (by cases q), drop_right (ef2.drop i1.base i2.base)⟩, ?_⟩
    · have := nodup_le i2.base.an (fun x hx => al1' x (ef2.al x hx))
      omega
    · intro hb _ hw2
      rw [ef2.waiting] at hw2
      rcases c2 hw2 with q | q
      · exact q
      · exact absurd (Or.inr q) hb
  cases es with
  | nil =>
    dsimp only
    cases stop with
    | true =>
      simp only [if_true]
      obtain ⟨p2, e2, r⟩ := upd2 (a := true)
      rw [e2]
      exact ⟨p2, _, rfl, r⟩
    | false =>
      simp only [Bool.false_eq_true, if_false]
      obtain ⟨p2, a, e2, po, ae, dr, wa, hb, hu, al2, gl2⟩ := waitTurn_ok (o := o) (o' := o') i1
      refine ⟨p2, a, e2, ⟨po.inv, ?_, ?_⟩, ⟨p1.regs, by rw [ae]; exact s1', hb, dr⟩, ?_⟩
      · exact Or.inl (gl2.trans g1)
      · have := nodup_le po.inv.base.an (fun x hx => al1' x (al2 x hx))
        omega
      · intro hbad _ _
        refine hu ?_
        cases q : a.ok with
        | true => rfl
        | false => exact absurd (Or.inl (hb q)) hbad
  | cons ev es =>
    dsimp only
    obtain ⟨p2, e2, r⟩ := upd2 (a := true)
    rw [e2]
    exact ⟨p2, _, rfl, r⟩

/-- Every operation. -/
theorem exec_ok {p : Port} {op : Op} (h : Inv p) (he : Env p op) :
    ∃ p' a, exec p op = some (p', a) ∧ Post p p' ∧ Spec p.regs p.owner op a p'.regs ∧
      (¬ op.bad → (0 < p.waiting → p.upd = []) → (0 < p'.waiting → p'.upd = [])) := by
  cases op with
  | add key ev data o =>
    obtain ⟨p', b, e, po, w, s, hu⟩ := ctlAdd_ok (key := key) (ev := ev) (data := data) h he.1 he.2
    refine ⟨p', ⟨b, []⟩, by unfold exec; dsimp only; rw [e]; rfl, po, ⟨rfl, ?_⟩, hu⟩
    cases b with
    | true => exact s
    | false => exact ⟨funext s.1, s.2⟩
  | mod key ev data o =>
    obtain ⟨p', b, e, po, w, hb, s, hu⟩ := ctlMod_ok (key := key) (ev := ev) (data := data) (o := o) h
    refine ⟨p', ⟨b, []⟩, by unfold exec; dsimp only; rw [e]; rfl, po, ⟨rfl, hb, ?_⟩, hu⟩
    cases b with
    | true => exact s
    | false =>
      have s' : p' = p := s
      show p'.regs = p.regs
      rw [s']
  | del key o =>
    obtain ⟨p', b, e, po, w, hb, s, hu⟩ := ctlDel_ok (key := key) (o := o) h
    refine ⟨p', ⟨b, []⟩, by unfold exec; dsimp only; rw [e]; rfl, po, ⟨rfl, hb, ?_⟩, fun _ => hu⟩
    cases b with
    | true => exact funext s
    | false =>
      have s' : p' = p := s
      have hn : p.regs key = none := by
        by_contra q
        exact absurd (hb.2 q) (by simp)
      rw [s', ← hn]
      exact (upd1_same _ _).symm
  | wait o o' =>
    obtain ⟨p', a, e, po, ae, dr, wa, hb, hu, al, _⟩ := waitTurn_ok (o := o) (o' := o') h
    refine ⟨p', a, e, po, ⟨ae, hb, dr⟩, fun hbad _ _ => hu ?_⟩
    cases q : a.ok with
    | true => rfl
    | false => exact absurd (Or.inl (hb q)) hbad
  | packets l stop o o' => exact packets_ok h he.1 he.2.1 he.2.2

end Verif.Wepoll.Ep
