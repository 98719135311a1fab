import Verif.Wepoll.PortFeed

/-!
# Sockets of an epoll set and their poll requests: properties
-/

namespace Verif.Wepoll.Ep

/-! ## Executions -/

/-- Executions: a list of operations with their answers, in an environment that keeps to `Env`. -/
inductive Exec : Port → List (Op × Ans) → Port → Prop
  | nil (p) : Exec p [] p
  | cons {p op a p1 t p'} : Env p op → exec p op = some (p1, a) → Exec p1 t p' → Exec p ((op, a) :: t) p'

/-- An epoll set that exists: made by `epoll_create` and used in any way. -/
def Reach (p : Port) : Prop := ∃ sock size t, Exec (port0 sock size) t p

theorem port0_inv (sock size) : Inv (port0 sock size) :=
  ⟨⟨List.nodup_nil, List.nodup_nil, by intro k x; simp [port0], List.nodup_nil, by simp [port0], List.nodup_nil, by simp [port0],
    ⟨List.nodup_nil, by simp [port0], by simp [port0, tokens], List.Pairwise.nil⟩⟩, ⟨List.nodup_nil, by simp [port0]⟩,
    fun x hx => by simp [port0] at hx⟩

theorem Exec.inv {p t p'} (h : Exec p t p') (hi : Inv p) : Inv p' := by
  induction h with
  | nil => exact hi
  | cons he hx _ ih =>
    obtain ⟨p2, a2, e2, po, _⟩ := exec_ok hi he
    rw [e2] at hx
    simp only [Option.some.injEq, Prod.mk.injEq] at hx
    exact ih (hx.1 ▸ po.inv)

theorem Reach.inv {p} (h : Reach p) : Inv p := by
  obtain ⟨sock, size, t, e⟩ := h
  exact e.inv (port0_inv sock size)

/-- The facts about one operation. -/
theorem exec_facts {p op p' a} (hi : Inv p) (he : Env p op) (hx : exec p op = some (p', a)) :
    Post p p' ∧ Spec p.regs p.owner op a p'.regs ∧ (¬ op.bad → (0 < p.waiting → p.upd = []) → (0 < p'.waiting → p'.upd = [])) := by
  obtain ⟨p2, a2, e2, r⟩ := exec_ok hi he
  rw [e2] at hx
  simp only [Option.some.injEq, Prod.mk.injEq] at hx
  rw [← hx.1, ← hx.2]
  exact r

/-! ## Memory -/

/-- C148: no operation uses a freed block or fails an assertion; the memory of an outstanding request is allocated, no two requests
are made for one block; and a block that is allocated is registered or its request is outstanding (so none is lost). -/
theorem blocks_live_partial {p} (h : Reach p) :
    (∀ op, Env p op → ∃ p' a, exec p op = some (p', a)) ∧ (∀ x ∈ p.io, x ∈ p.alive) ∧ p.io.Nodup ∧
      (∀ x ∈ p.alive, (∃ key, (key, x) ∈ p.tree) ∨ x ∈ p.io) := by
  have hi := h.inv
  refine ⟨fun op he => ?_, fun x hx => ((hi.io.mem x).1 hx).1, hi.io.nd, ?_⟩
  · obtain ⟨p', a, e, _⟩ := exec_ok hi he
    exact ⟨p', a, e⟩
  · intro x hx
    cases hd : (p.sock x).del with
    | false => exact Or.inl ⟨_, (hi.base.tr _ _).2 ⟨hx, hd, rfl⟩⟩
    | true => exact Or.inr ((hi.io.mem x).2 ⟨hx, ((hi.cov x hx).1 hd).2⟩)

/-! ### Closing -/

theorem closeTree_ok {root : List (Nat × Nat) → Nat} {cancel : Nat → Bool} (hr : ∀ l, l ≠ [] → root l ∈ l.map (·.2)) : ∀ (n : Nat) {p : Port},
    Base p → (∀ y ∈ p.alive, (p.sock y).del = true → y ∈ p.dels) → p.tree.length < n →
    ∃ p', closeTree root cancel n p = some p' ∧ Base p' ∧ (∀ y ∈ p'.alive, (p'.sock y).del = true → y ∈ p'.dels) ∧ p'.tree = [] ∧ p'.io = p.io := by
  intro n
  induction n with
  | zero => intro _ _ _ h; omega
  | succ n ih =>
    intro p b hd hlt
    unfold closeTree
    by_cases ht : p.tree = []
    · rw [if_pos ht]
      exact ⟨p, rfl, b, hd, ht, rfl⟩
    · rw [if_neg ht]
      have hm := hr _ ht
      obtain ⟨x, hx⟩ : ∃ x, x = root p.tree := ⟨_, rfl⟩
      rw [← hx] at hm ⊢
      rw [List.mem_map] at hm
      obtain ⟨a, ha, hax⟩ := hm
      have hxa : x ∈ p.alive := by
        have := ((b.tr a.1 a.2).1 ha).1
        rw [hax] at this
        exact this
      obtain ⟨p1, e1, b1, t1, i1, u1, w1, k1, s1, l1, c1⟩ := sockDelete_ok true cancel b hxa
      simp only [true_or, if_true] at c1
      rw [e1]
      dsimp only
      have hl1 : p1.tree.length < n := by
        rw [t1]
        have : (p.tree.filter (fun e => e.2 ≠ x)).length < p.tree.length := by
          rw [List.length_filter_lt_length_iff_exists]
          exact ⟨a, ha, by simp [hax]⟩
        omega
      obtain ⟨p2, e2, b2, d2, t2, i2⟩ := ih b1 (by
        intro y hy hyd
        rw [c1.1, mem_out] at hy
        rw [s1 y hy.2] at hyd
        rw [c1.2, mem_out]
        exact ⟨hd y hy.1 hyd, hy.2⟩) hl1
      exact ⟨p2, e2, b2, d2, t2, by rw [i2, i1]⟩

theorem closeDels_ok {cancel : Nat → Bool} : ∀ (n : Nat) {p : Port},
    Base p → (∀ y ∈ p.alive, (p.sock y).del = true → y ∈ p.dels) → p.tree = [] → p.dels.length < n →
    ∃ p', closeDels cancel n p = some p' ∧ Base p' ∧ p'.alive = [] ∧ p'.tree = [] ∧ p'.dels = [] ∧ p'.io = p.io := by
  intro n
  induction n with
  | zero => intro _ _ _ _ h; omega
  | succ n ih =>
    intro p b hd ht hlt
    unfold closeDels
    cases hq : p.dels with
    | nil =>
      refine ⟨p, rfl, b, ?_, ht, hq, rfl⟩
      rw [List.eq_nil_iff_forall_not_mem]
      intro y hy
      cases e : (p.sock y).del with
      | true =>
        have := hd y hy e
        rw [hq] at this
        simp at this
      | false =>
        have := (b.tr _ y).2 ⟨hy, e, rfl⟩
        rw [ht] at this
        simp at this
    | cons x l =>
      dsimp only
      have hxd : x ∈ p.dels := by rw [hq]; simp
      obtain ⟨p1, e1, b1, t1, i1, u1, w1, k1, s1, l1, c1⟩ := sockDelete_ok true cancel b (b.dm x hxd).1
      simp only [true_or, if_true] at c1
      rw [e1]
      dsimp only
      have hl1 : p1.dels.length < n := by
        rw [c1.2]
        have : (p.dels.filter (fun e => e ≠ x)).length < p.dels.length := by
          rw [List.length_filter_lt_length_iff_exists]
          exact ⟨x, hxd, by simp⟩
        omega
      obtain ⟨p2, e2, b2, a2, t2, d2, i2⟩ := ih b1 (by
        intro y hy hyd
        rw [c1.1, mem_out] at hy
        rw [s1 y hy.2] at hyd
        rw [c1.2, mem_out]
        exact ⟨hd y hy.1 hyd, hy.2⟩) (by rw [t1, ht]; rfl) hl1
      exact ⟨p2, e2, b2, a2, t2, d2, by rw [i2, i1]⟩

theorem closeGroups_ok {size : Nat → Nat} : ∀ q : List Nat, (∀ n ∈ q, size n = 0) → closeGroups size q = some [] := by
  intro q
  induction q with
  | nil => intro _; rfl
  | cons a l ih =>
    intro h
    unfold closeGroups
    rw [if_pos (h a (by simp))]
    exact ih (fun n hn => h n (List.mem_cons_of_mem _ hn))

theorem portDelete_ok {p : Port} {root : List (Nat × Nat) → Nat} {cancel : Nat → Bool} (h : Inv p) (hr : ∀ l, l ≠ [] → root l ∈ l.map (·.2)) :
    ∃ p', portDelete p root cancel = some p' ∧ p'.alive = [] ∧ p'.g.q = [] ∧ p'.tree = [] ∧ p'.upd = [] ∧ p'.dels = [] ∧ p'.io = p.io := by
  unfold portDelete
  obtain ⟨p1, e1, b1, d1, t1, i1⟩ := closeTree_ok (cancel := cancel) hr (p.tree.length + 1) h.base
    (fun y hy hyd => ((h.cov y hy).1 hyd).1) (Nat.lt_succ_self _)
  rw [e1]
  dsimp only
  obtain ⟨p2, e2, b2, a2, t2, d2, i2⟩ := closeDels_ok (cancel := cancel) (p1.dels.length + 1) b1 d1 t1 (Nat.lt_succ_self _)
  rw [e2]
  dsimp only
  have hg : ∀ n ∈ p2.g.q, p2.g.size n = 0 := by
    intro n hn
    rw [(b2.gi.cnt n hn).1]
    unfold tokens
    rw [a2]
    rfl
  rw [closeGroups_ok _ hg]
  dsimp only
  have hu : p2.upd = [] := by
    rw [List.eq_nil_iff_forall_not_mem]
    intro y hy
    have := (b2.um y hy).1
    rw [a2] at this
    simp at this
  rw [if_pos hu]
  exact ⟨_, rfl, a2, rfl, t2, hu, d2, i2.trans i1⟩

/-- C148: closing an epoll set in any state frees every block and every handle of the driver, whatever node is the root of the tree
and whether or not cancellations succeed. -/
theorem close_frees_everything {p root cancel} (h : Reach p) (hr : ∀ l : List (Nat × Nat), l ≠ [] → root l ∈ l.map (·.2)) :
    ∃ p', portDelete p root cancel = some p' ∧ p'.alive = [] ∧ p'.g.q = [] := by
  obtain ⟨p', e, a, g, _⟩ := portDelete_ok (cancel := cancel) h.inv hr
  exact ⟨p', e, a, g⟩

/-- C148, what is missing: the blocks of outstanding requests are freed too, though the system has not ended these requests and will
write their results into the blocks. -/
theorem close_frees_blocks_of_requests {p root cancel x} (h : Reach p) (hr : ∀ l : List (Nat × Nat), l ≠ [] → root l ∈ l.map (·.2))
    (hx : x ∈ p.io) : ∃ p', portDelete p root cancel = some p' ∧ x ∈ p'.io ∧ x ∉ p'.alive := by
  obtain ⟨p', e, a, _, _, _, _, i⟩ := portDelete_ok (cancel := cancel) h.inv hr
  exact ⟨p', e, by rw [i]; exact hx, by rw [a]; simp⟩

/-! ## Registrations and reports -/

/-- C149: the operations of `epoll_ctl` and `epoll_wait` do to the table of registrations what `Spec` says. -/
theorem registrations_exact {p op p' a} (h : Reach p) (he : Env p op) (hx : exec p op = some (p', a)) : Spec p.regs p.owner op a p'.regs :=
  (exec_facts h.inv he hx).2.1

/-- The sockets of a list of packets. -/
def keysOf (l : List (Option Nat × Packet)) : List Nat := l.filterMap (·.1)

theorem handle_out (r : Regs) (key : Nat) (k : Packet) {z : Nat} (h : z ≠ key) : (handle r key k).1 z = r z := by
  unfold handle
  cases hr : r key with
  | none => rfl
  | some v =>
    obtain ⟨m, d⟩ := v
    dsimp only
    cases packetEvents k with
    | none => simp [upd1, h]
    | some v =>
      dsimp only
      split
      · rfl
      · simp [upd1, h]

theorem deliver_out : ∀ (l : List (Option Nat × Packet)) (r : Regs) {z : Nat}, z ∉ keysOf l → (deliver r l).1 z = r z := by
  intro l
  induction l with
  | nil => intro _ _ _; rfl
  | cons a l ih =>
    intro r z hz
    obtain ⟨ow, k⟩ := a
    cases ow with
    | none =>
      unfold deliver
      exact ih r (by simpa [keysOf] using hz)
    | some key =>
      unfold deliver
      dsimp only
      simp only [keysOf, List.filterMap_cons, List.mem_cons, not_or] at hz
      rw [ih _ hz.2, handle_out _ _ _ hz.1]

/-- A report: it was requested, and a one-time registration asks for nothing any more. -/
def Reported (r r' : Regs) (key : Nat) (e : Event) : Prop :=
  ∃ m, r key = some (m, e.1) ∧ e.2 ≠ 0 ∧ e.2 &&& ~~~ m = 0 ∧ r' key = some (if has m epollOneshot then 0 else m, e.1)

theorem and_sub (v m : Mask) : (v &&& m) &&& ~~~ m = 0 := by
  apply BitVec.eq_of_getLsbD_eq
  intro i hi
  simp only [BitVec.getLsbD_and, BitVec.getLsbD_not, hi, decide_true, Bool.true_and]
  cases m.getLsbD i <;> simp

theorem handle_event {r : Regs} {key : Nat} {k : Packet} {e : Event} (h : (handle r key k).2 = some e) : Reported r (handle r key k).1 key e := by
  unfold handle at h ⊢
  cases hr : r key with
  | none => rw [hr] at h; cases h
  | some v =>
    obtain ⟨m, d⟩ := v
    rw [hr] at h
    dsimp only at h ⊢
    cases hk : packetEvents k with
    | none => rw [hk] at h; cases h
    | some v =>
      rw [hk] at h
      dsimp only at h ⊢
      by_cases hv : v &&& m = 0
      · rw [if_pos hv] at h; cases h
      · rw [if_neg hv] at h ⊢
        simp only [Option.some.injEq] at h
        subst h
        refine ⟨m, hr, hv, and_sub v m, ?_⟩
        simp [upd1]

theorem forall2_mono {R S : Nat → Event → Prop} {ks : List Nat} {es : List Event} (hf : List.Forall₂ R ks es)
    (h : ∀ k ∈ ks, ∀ e, R k e → S k e) : List.Forall₂ S ks es := by
  induction hf with
  | nil => exact List.Forall₂.nil
  | cons hR _ ih =>
    exact List.Forall₂.cons (h _ (by simp) _ hR) (ih fun k hk => h k (List.mem_cons_of_mem _ hk))

theorem deliver_reports : ∀ (l : List (Option Nat × Packet)) (r : Regs), (keysOf l).Nodup →
    ∃ ks : List Nat, ks.Nodup ∧ (∀ k ∈ ks, k ∈ keysOf l) ∧ List.Forall₂ (Reported r (deliver r l).1) ks (deliver r l).2 := by
  intro l
  induction l with
  | nil => intro r _; exact ⟨[], List.nodup_nil, by simp, List.Forall₂.nil⟩
  | cons a l ih =>
    intro r hn
    obtain ⟨ow, k⟩ := a
    cases ow with
    | none =>
      unfold deliver
      exact ih r (by simpa [keysOf] using hn)
    | some key =>
      have hn' : (key :: keysOf l).Nodup := by simpa [keysOf] using hn
      rw [List.nodup_cons] at hn'
      obtain ⟨ks, hks, hin, hf⟩ := ih (handle r key k).1 hn'.2
      have hf' : List.Forall₂ (Reported r (deliver (handle r key k).1 l).1) ks (deliver (handle r key k).1 l).2 := by
        refine forall2_mono hf ?_
        rintro z hz e ⟨m, h1, h2⟩
        rw [handle_out _ _ _ (fun q : z = key => hn'.1 (q ▸ hin z hz))] at h1
        exact ⟨m, h1, h2⟩
      unfold deliver
      dsimp only
      have hkl : keysOf ((some key, k) :: l) = key :: keysOf l := by simp [keysOf]
      rw [hkl]
      cases he : (handle r key k).2 with
      | none => exact ⟨ks, hks, fun z hz => List.mem_cons_of_mem _ (hin z hz), hf'⟩
      | some e =>
        refine ⟨key :: ks, List.nodup_cons.2 ⟨fun q => hn'.1 (hin _ q), hks⟩, ?_, List.Forall₂.cons ?_ hf'⟩
        · intro z hz
          rw [List.mem_cons] at hz ⊢
          exact hz.imp id (hin z)
        · obtain ⟨m, h1, h2, h3, h4⟩ := handle_event he
          exact ⟨m, h1, h2, h3, by rw [deliver_out l _ hn'.1]; exact h4⟩

/-- Requests of registered sockets belong to different sockets. -/
theorem owners_nodup {p : Port} (h : Inv p) : ∀ (l : List (Nat × Packet)), (l.map (·.1)).Nodup → (∀ x ∈ l.map (·.1), x ∈ p.io) →
    (keysOf (l.map fun (x, k) => (p.owner x, k))).Nodup := by
  intro l
  induction l with
  | nil => intro _ _; exact List.nodup_nil
  | cons a l ih =>
    intro hn hm
    obtain ⟨x, k⟩ := a
    rw [List.map_cons, List.nodup_cons] at hn
    have ih' := ih hn.2 (fun y hy => hm y (by simp only [List.map_cons, List.mem_cons]; exact Or.inr hy))
    have hxa := ((h.io.mem x).1 (hm x (by simp))).1
    unfold keysOf at ih' ⊢
    rw [List.map_cons, List.filterMap_cons]
    dsimp only
    cases ho : p.owner x with
    | none => exact ih'
    | some key =>
      dsimp only
      rw [List.nodup_cons]
      refine ⟨?_, ih'⟩
      intro q
      rw [List.mem_filterMap] at q
      obtain ⟨b, hb, hbk⟩ := q
      rw [List.mem_map] at hb
      obtain ⟨c, hc, rfl⟩ := hb
      obtain ⟨y, j⟩ := c
      have hyl : y ∈ l.map (·.1) := List.mem_map.2 ⟨_, hc, rfl⟩
      have hya := ((h.io.mem y).1 (hm y (by simp only [List.map_cons, List.mem_cons]; exact Or.inr hyl))).1
      have key1 : ∀ z, z ∈ p.alive → p.owner z = some key → (key, z) ∈ p.tree := by
        intro z hz hzo
        unfold Port.owner at hzo
        split at hzo
        · cases hzo
        · rename_i hd
          simp only [Option.some.injEq] at hzo
          exact (h.base.tr _ _).2 ⟨hz, by simpa using hd, hzo⟩
      have h1 := key1 x hxa ho
      have h2 := key1 y hya hbk
      have := List.inj_on_of_nodup_map h.base.tk h1 h2 rfl
      rw [Prod.mk.injEq] at this
      rw [this.2] at hn
      exact hn.1 hyl

theorem report_facts {p op p' a} (h : Inv p) (he : Env p op) (hx : exec p op = some (p', a)) :
    ∃ ks : List Nat, ks.Nodup ∧ List.Forall₂ (fun key e => ∃ m, p.regs key = some (m, e.1) ∧ e.2 ≠ 0 ∧ e.2 &&& ~~~ m = 0 ∧
      (p'.regs key = none ∨ p'.regs key = some (if has m epollOneshot then 0 else m, e.1))) ks a.events := by
  have hs := (exec_facts h he hx).2.1
  cases op with
  | add => rw [hs.1]; exact ⟨[], List.nodup_nil, List.Forall₂.nil⟩
  | mod => rw [hs.1]; exact ⟨[], List.nodup_nil, List.Forall₂.nil⟩
  | del => rw [hs.1]; exact ⟨[], List.nodup_nil, List.Forall₂.nil⟩
  | wait => rw [hs.1]; exact ⟨[], List.nodup_nil, List.Forall₂.nil⟩
  | packets l stop o o' =>
    obtain ⟨r1, h1, _, h3⟩ := hs
    obtain ⟨ks, hn, _, hf⟩ := deliver_reports _ p.regs (owners_nodup h l he.1 he.2.1)
    rw [← h1] at hf
    refine ⟨ks, hn, hf.imp ?_⟩
    rintro key e ⟨m, q1, q2, q3, q4⟩
    refine ⟨m, q1, q2, q3, ?_⟩
    rcases h3 key with q | q
    · exact Or.inr (q.trans q4)
    · exact Or.inl q.1

/-- C149: an answer of `epoll_wait` has at most one event for each socket; each event belongs to a socket that is registered, carries
the data of its registration, is not empty and has only events that were requested; and if the registration is for one time, it asks
for nothing afterwards. -/
theorem only_requested_events {p op p' a} (h : Reach p) (he : Env p op) (hx : exec p op = some (p', a)) :
    ∃ ks : List Nat, ks.Nodup ∧ List.Forall₂ (fun key e => ∃ m, p.regs key = some (m, e.1) ∧ e.2 ≠ 0 ∧ e.2 &&& ~~~ m = 0 ∧
      (has m epollOneshot = true → p'.regs key = none ∨ p'.regs key = some (0, e.1))) ks a.events := by
  obtain ⟨ks, hn, hf⟩ := report_facts h.inv he hx
  refine ⟨ks, hn, hf.imp ?_⟩
  rintro key e ⟨m, q1, q2, q3, q4⟩
  refine ⟨m, q1, q2, q3, fun ho => ?_⟩
  rw [if_pos ho] at q4
  exact q4

theorem deliver_all : ∀ (l : List (Option Nat × Packet)) (r : Regs), (keysOf l).Nodup → ∀ key b v m d, (some key, b) ∈ l →
    r key = some (m, d) → packetEvents b = some v → v &&& m ≠ 0 → (d, v &&& m) ∈ (deliver r l).2 := by
  intro l
  induction l with
  | nil => intro _ _ _ _ _ _ _ h; simp at h
  | cons b l ih =>
    intro r hn key a v m d hm hr hl hv
    obtain ⟨ow, k⟩ := b
    cases ow with
    | none =>
      unfold deliver
      refine ih r (by simpa [keysOf] using hn) key a v m d ?_ hr hl hv
      simpa using hm
    | some key' =>
      have hn' : (key' :: keysOf l).Nodup := by simpa [keysOf] using hn
      rw [List.nodup_cons] at hn'
      unfold deliver
      dsimp only
      rw [List.mem_cons] at hm
      rw [List.mem_append]
      rcases hm with hm | hm
      · rw [Prod.mk.injEq, Option.some.injEq] at hm
        obtain ⟨rfl, rfl⟩ := hm
        refine Or.inl ?_
        unfold handle
        rw [hr]
        dsimp only
        rw [hl]
        dsimp only
        rw [if_neg hv]
        simp
      · refine Or.inr (ih _ hn'.2 key a v m d hm ?_ hl hv)
        have hne : key ≠ key' := by
          rintro rfl
          exact hn'.1 (List.mem_filterMap.2 ⟨_, hm, rfl⟩)
        rw [handle_out _ _ _ hne]
        exact hr

/-- C149: no requested event is lost: if the driver tells events of a registered socket and some of them are requested, they are in the
answer, with the data of the registration. -/
theorem requested_events_reported {p l stop o o' p' ans} (h : Reach p) (he : Env p (.packets l stop o o'))
    (hx : exec p (.packets l stop o o') = some (p', ans)) {x key a m d} (hm : (x, Packet.events a) ∈ l) (ho : p.owner x = some key)
    (hr : p.regs key = some (m, d)) (hl : has a afdLocalClose = false) (hv : toEpoll a &&& m ≠ 0) : (d, toEpoll a &&& m) ∈ ans.events := by
  obtain ⟨r1, h1, _⟩ := (exec_facts h.inv he hx).2.1
  have := deliver_all _ p.regs (owners_nodup h.inv l he.1 he.2.1) key (.events a) (toEpoll a) m d
    (List.mem_map.2 ⟨_, hm, by show (p.owner x, _) = _; rw [ho]⟩) hr (by rw [packetEvents, if_neg (by rw [hl]; simp)]) hv
  rw [← h1] at this
  exact this

/-- C149: a request that failed is not lost either: the user is told of an error, with the data of the registration (every registration
that asks for anything asks for errors, see `Registered`). -/
theorem failed_request_reported {p l stop o o' p' ans} (h : Reach p) (he : Env p (.packets l stop o o'))
    (hx : exec p (.packets l stop o o') = some (p', ans)) {x key m d} (hm : (x, Packet.failed) ∈ l) (ho : p.owner x = some key)
    (hr : p.regs key = some (m, d)) (hv : epollErr &&& m ≠ 0) : (d, epollErr &&& m) ∈ ans.events := by
  obtain ⟨r1, h1, _⟩ := (exec_facts h.inv he hx).2.1
  have := deliver_all _ p.regs (owners_nodup h.inv l he.1 he.2.1) key .failed epollErr m d
    (List.mem_map.2 ⟨_, hm, by show (p.owner x, _) = _; rw [ho]⟩) hr rfl hv
  rw [← h1] at this
  exact this

/-! ### One-time registrations -/

/-- The operation registers something with the data `d`. -/
def Op.sets (d : Nat) : Op → Prop
  | .add _ _ d' _ => d' = d
  | .mod _ _ d' _ => d' = d
  | _ => False

/-- How often an event with the data `d` was reported. -/
def timesReported (d : Nat) (t : List (Op × Ans)) : Nat := (t.flatMap fun e => e.2.events).countP fun e => e.1 = d

/-- Registrations do not change but for the operations of the user, closing and the end of one-time registrations. -/
theorem regs_after {p op p' a} (h : Inv p) (he : Env p op) (hx : exec p op = some (p', a)) {d : Nat} (hs : ¬ op.sets d) (k : Nat) (m : Mask)
    (hk : p'.regs k = some (m, d)) : p.regs k = some (m, d) ∨ (m = 0 ∧ ∃ m', p.regs k = some (m', d) ∧ has m' epollOneshot = true) := by
  have hsp := (exec_facts h he hx).2.1
  have hdrop : ∀ {r : Regs} {o : Orc}, Drop r p'.regs o → r k = some (m, d) := by
    intro r o hd
    rcases hd k with q | q
    · rw [← q, hk]
    · rw [q.1] at hk; cases hk
  cases op with
  | add key ev data o =>
    obtain ⟨_, h2⟩ := hsp
    split at h2
    · have := hdrop h2.2
      unfold upd1 at this
      split at this
      · simp only [Option.some.injEq, Prod.mk.injEq] at this
        exact absurd this.2 hs
      · exact Or.inl this
    · rw [h2.1] at hk
      exact Or.inl hk
  | mod key ev data o =>
    obtain ⟨_, _, h2⟩ := hsp
    split at h2
    · have := hdrop h2
      unfold upd1 at this
      split at this
      · simp only [Option.some.injEq, Prod.mk.injEq] at this
        exact absurd this.2 hs
      · exact Or.inl this
    · rw [h2] at hk
      exact Or.inl hk
  | del key o =>
    rw [hsp.2.2] at hk
    unfold upd1 at hk
    split at hk
    · cases hk
    · exact Or.inl hk
  | wait o o' =>
    rcases hsp.2.2 k with q | q
    · rw [← q]; exact Or.inl hk
    · rw [q.1] at hk; cases hk
  | packets l stop o o' =>
    obtain ⟨r1, h1, _, h3⟩ := hsp
    have hr1 : r1 k = some (m, d) := by
      rcases h3 k with q | q
      · rw [← q, hk]
      · rw [q.1] at hk; cases hk
    have hr1' : r1 = (deliver p.regs (l.map fun (x, k) => (p.owner x, k))).1 := congrArg Prod.fst h1
    have key : ∀ (l : List (Option Nat × Packet)) (r : Regs), (deliver r l).1 k = some (m, d) →
        r k = some (m, d) ∨ (m = 0 ∧ ∃ m', r k = some (m', d) ∧ has m' epollOneshot = true) := by
      intro l
      induction l with
      | nil => intro r q; exact Or.inl q
      | cons b l ih =>
        intro r q
        obtain ⟨ow, j⟩ := b
        cases ow with
        | none => unfold deliver at q; exact ih r q
        | some key =>
          unfold deliver at q
          have := ih _ q
          by_cases e : k = key
          · subst e
            have hh : ∀ m', (handle r k j).1 k = some (m', d) → r k = some (m', d) ∨ (m' = 0 ∧ ∃ m'', r k = some (m'', d) ∧ has m'' epollOneshot = true) := by
              intro m' q
              unfold handle at q
              cases hr : r k with
              | none => rw [hr] at q; dsimp only at q; rw [hr] at q; cases q
              | some v =>
                obtain ⟨m2, d2⟩ := v
                rw [hr] at q
                dsimp only at q
                cases hj : packetEvents j with
                | none =>
                  rw [hj] at q
                  simp [upd1] at q
                | some v =>
                  rw [hj] at q
                  dsimp only at q
                  split at q
                  · dsimp only at q
                    rw [hr] at q
                    exact Or.inl q
                  · simp only [upd1, if_true, Option.some.injEq, Prod.mk.injEq] at q
                    obtain ⟨q1, rfl⟩ := q
                    split at q1
                    · rename_i ho
                      exact Or.inr ⟨q1.symm, m2, rfl, ho⟩
                    · rw [q1]; exact Or.inl rfl
            rcases this with q' | ⟨q0, m', q', ho⟩
            · exact hh m q'
            · rcases hh m' q' with q'' | ⟨q1, _⟩
              · exact Or.inr ⟨q0, m', q'', ho⟩
              · rw [q1] at ho
                exact absurd ho (by decide)
          · rw [handle_out _ _ _ e] at this
            exact this
    rw [hr1'] at hr1
    exact key _ _ hr1

theorem forall2_count {R : Nat → Event → Prop} {k d : Nat} : ∀ {ks : List Nat} {es : List Event}, ks.Nodup → List.Forall₂ R ks es →
    (∀ key e, R key e → e.1 = d → key = k) → es.countP (fun e => e.1 = d) ≤ 1 := by
  intro ks es hn hf hk
  have key : es.countP (fun e => e.1 = d) ≤ ks.count k := by
    clear hn
    induction hf with
    | nil => simp
    | cons hR _ ih =>
      rename_i a b l l' _
      rw [List.countP_cons, List.count_cons]
      by_cases e : b.1 = d
      · have := hk a b hR e
        simp only [e, decide_true, if_true, this, beq_self_eq_true]
        omega
      · simp only [e, decide_false, Bool.false_eq_true, if_false]
        omega
  have := List.nodup_iff_count_le_one.1 hn k
  omega

theorem forall2_none {R : Nat → Event → Prop} {d : Nat} {ks : List Nat} {es : List Event} (hf : List.Forall₂ R ks es)
    (hk : ∀ key e, R key e → e.1 ≠ d) : es.countP (fun e => e.1 = d) = 0 := by
  rw [List.countP_eq_zero]
  intro e he
  induction hf with
  | nil => simp at he
  | cons hR _ ih =>
    rw [List.mem_cons] at he
    rcases he with rfl | he
    · simpa using hk _ _ hR
    · exact ih he

theorem forall2_mem {R : Nat → Event → Prop} {ks : List Nat} {es : List Event} (hf : List.Forall₂ R ks es) {e : Event} (he : e ∈ es) :
    ∃ k ∈ ks, R k e := by
  induction hf with
  | nil => simp at he
  | cons hR _ ih =>
    rw [List.mem_cons] at he
    rcases he with rfl | he
    · exact ⟨_, by simp, hR⟩
    · obtain ⟨k, a1, a2⟩ := ih he
      exact ⟨k, List.mem_cons_of_mem _ a1, a2⟩

theorem and_zero_of_sub (v : Mask) (h : v &&& ~~~ (0 : Mask) = 0) : v = 0 := by
  rw [show ~~~ (0 : Mask) = BitVec.allOnes 32 by decide, BitVec.and_allOnes] at h
  exact h

theorem disarmed_silent {p t p'} (h : Exec p t p') : ∀ {d : Nat}, Inv p → (∀ e ∈ t, ¬ e.1.sets d) → (∀ k m, p.regs k = some (m, d) → m = 0) →
    timesReported d t = 0 := by
  induction h with
  | nil => intro _ _ _ _; rfl
  | cons he hx _ ih =>
    rename_i p op a p1 t p' _
    intro d hi hs hz
    have hrep := report_facts hi he hx
    obtain ⟨ks, hn, hf⟩ := hrep
    have hsop := hs (op, a) (by simp)
    have h0 : a.events.countP (fun e => e.1 = d) = 0 := by
      refine forall2_none hf ?_
      rintro key e ⟨m, q1, q2, q3, _⟩ q
      rw [q] at q1
      have := hz key m q1
      rw [this] at q3
      exact q2 (and_zero_of_sub _ q3)
    have := ih (d := d) (exec_facts hi he hx).1.inv (fun e hm => hs e (List.mem_cons_of_mem _ hm)) (by
      intro k m hk
      rcases regs_after hi he hx hsop k m hk with q | q
      · exact hz k m q
      · exact q.1)
    unfold timesReported at this ⊢
    rw [List.flatMap_cons, List.countP_append]
    dsimp only
    omega

theorem oneshot_count {p t p'} (h : Exec p t p') : ∀ {k d : Nat}, Inv p → (∀ e ∈ t, ¬ e.1.sets d) →
    (∀ k' m, p.regs k' = some (m, d) → k' = k ∧ (m = 0 ∨ has m epollOneshot = true)) → timesReported d t ≤ 1 := by
  induction h with
  | nil => intro _ _ _ _ _; exact Nat.zero_le _
  | cons he hx hrest ih =>
    rename_i p op a p1 t p'
    intro k d hi hs hz
    obtain ⟨ks, hn, hf⟩ := report_facts hi he hx
    have hsop := hs (op, a) (by simp)
    have hi1 := (exec_facts hi he hx).1.inv
    have hs1 : ∀ e ∈ t, ¬ e.1.sets d := fun e hm => hs e (List.mem_cons_of_mem _ hm)
    have h1 : a.events.countP (fun e => e.1 = d) ≤ 1 := by
      refine forall2_count (k := k) hn hf ?_
      rintro key e ⟨m, q1, _⟩ q
      rw [q] at q1
      exact (hz key m q1).1
    unfold timesReported
    rw [List.flatMap_cons, List.countP_append]
    by_cases hc : a.events.countP (fun e => e.1 = d) = 0
    · have := ih (k := k) (d := d) hi1 hs1 (by
        intro k' m hk
        rcases regs_after hi he hx hsop k' m hk with q | ⟨q, m', q', _⟩
        · exact hz k' m q
        · exact ⟨(hz k' m' q').1, Or.inl q⟩)
      unfold timesReported at this
      dsimp only
      omega
    · -- it was reported now: afterwards nothing is asked for
      have hdis : ∀ k' m, p1.regs k' = some (m, d) → m = 0 := by
        intro k' m hk
        have hk' : k' = k := by
          rcases regs_after hi he hx hsop k' m hk with q | ⟨_, m', q', _⟩
          · exact (hz k' m q).1
          · exact (hz k' m' q').1
        subst hk'
        obtain ⟨e, hem, hed⟩ : ∃ e ∈ a.events, e.1 = d := by
          have := List.countP_pos_iff.1 (Nat.pos_of_ne_zero hc)
          simpa using this
        obtain ⟨key, _, m2, q1, q2, q3, q4⟩ : ∃ key ∈ ks, ∃ m, p.regs key = some (m, e.1) ∧ e.2 ≠ 0 ∧ e.2 &&& ~~~ m = 0 ∧
            (p1.regs key = none ∨ p1.regs key = some (if has m epollOneshot then 0 else m, e.1)) := by
          exact forall2_mem hf hem
        rw [hed] at q1 q4
        obtain ⟨rfl, hm2⟩ := hz key m2 q1
        have hone : has m2 epollOneshot = true := by
          rcases hm2 with q | q
          · rw [q] at q3
            exact absurd (and_zero_of_sub _ q3) q2
          · exact q
        rw [if_pos hone, hk] at q4
        rcases q4 with q | q
        · cases q
        · simp only [Option.some.injEq, Prod.mk.injEq, and_true] at q
          exact q
      have := disarmed_silent hrest (d := d) hi1 hs1 hdis
      unfold timesReported at this
      dsimp only
      omega

/-- C149: a socket registered for one time is reported at most once until it is registered anew, whatever happens. -/
theorem oneshot_at_most_once {p t p' k m d} (h : Reach p) (hr : p.regs k = some (m, d)) (ho : has m epollOneshot = true)
    (hd : ∀ k' m', k' ≠ k → p.regs k' ≠ some (m', d)) (ht : Exec p t p') (hs : ∀ e ∈ t, ¬ e.1.sets d) : timesReported d t ≤ 1 := by
  refine oneshot_count (k := k) ht h.inv hs ?_
  intro k' m' hk
  by_cases e : k' = k
  · subst e
    rw [hr] at hk
    simp only [Option.some.injEq, Prod.mk.injEq, and_true] at hk
    rw [← hk]
    exact ⟨rfl, Or.inr ho⟩
  · exact absurd hk (hd k' m' e)

/-! ## Sockets are watched -/

theorem watched_inv {p t p'} (h : Exec p t p') : Inv p → (0 < p.waiting → p.upd = []) → (∀ e ∈ t, ¬ e.1.bad) → (0 < p'.waiting → p'.upd = []) := by
  induction h with
  | nil => intro _ h _; exact h
  | cons he hx _ ih =>
    intro hi hw hb
    have f := exec_facts hi he hx
    exact ih f.1.inv (f.2.2 (hb _ List.mem_cons_self) hw) (fun e hm => hb e (List.mem_cons_of_mem _ hm))

/-- C150: if the system refuses no request and no cancellation, then at any time when a thread waits, every registered socket has an
outstanding request; it asks for all the events registered, or it was cancelled to be made anew. -/
theorem watched_while_waiting_partial {sock size t p} (h : Exec (port0 sock size) t p) (hb : ∀ e ∈ t, ¬ e.1.bad) (hw : 0 < p.waiting) {key m d}
    (hr : p.regs key = some (m, d)) :
    ∃ x ∈ p.io, (p.sock x).key = key ∧ p.owner x = some key ∧
      ((p.sock x).status = .cancelled ∨ m &&& known &&& ~~~ (p.sock x).pend = 0) := by
  have hi := h.inv (port0_inv sock size)
  have hu := watched_inv h (port0_inv sock size) (fun q => by simp [port0] at q) hb hw
  rw [regs_some hi.base] at hr
  obtain ⟨x, hx, rfl, rfl⟩ := hr
  obtain ⟨ha, hd, hk⟩ := (hi.base.tr key x).1 hx
  have hc := (hi.cov x ha).2 hd
  rw [hu] at hc
  simp only [List.not_mem_nil, false_or] at hc
  refine ⟨x, (hi.io.mem x).2 ⟨ha, ?_⟩, hk, ?_, hc.imp id fun q => ?_⟩
  · rcases hc with q | q
    · rw [q]; simp
    · rw [q.1]; simp
  · unfold Port.owner
    rw [hd, hk]
    rfl
  · simpa [covered] using q.2

/-- Calls of `epoll_wait` one after the other, each with the same answers of the system. -/
def waits (o : Orc) : Nat → Port → Option (Port × List Bool)
  | 0, p => some (p, [])
  | n + 1, p =>
    match exec p (.wait o o) with
    | none => none
    | some (p, a) => (waits o n p).map fun (p, l) => (p, a.ok :: l)

/-- C150, what is missing: one socket for which the system refuses the request (other than because it is closed) and that is first
in line makes every `epoll_wait` fail, and no other socket is ever watched. -/
theorem one_refused_socket_blocks_all {p x l o} (h : Reach p) (hu : p.upd = x :: l) (hs : (p.sock x).status = .idle)
    (ho : o.poll (p.sock x).key = .failed) (n : Nat) : waits o n p = some (p, List.replicate n false) := by
  have hi := h.inv
  have hsu : sockUpdate p x o = some (p, false) := by
    have hm := hi.base.um x (by rw [hu]; simp)
    unfold sockUpdate
    rw [if_pos hm.1]
    dsimp only
    rw [if_neg (by rw [hm.2]; simp), hs]
    dsimp only
    rw [ho]
  have hue : updateEvents (p.upd.length + 1) p o = some (p, false) := by
    unfold updateEvents
    rw [hu]
    dsimp only
    rw [hsu]
  have hup : updateIfPolling p o = some p := by
    unfold updateIfPolling
    split
    · rw [hue]
    · rfl
  have hx : exec p (.wait o o) = some (p, ⟨false, []⟩) := by
    unfold exec
    dsimp only
    unfold waitTurn pollBegin
    rw [hue]
    dsimp only
    rw [hup]
    rfl
  induction n with
  | zero => rfl
  | succ n ih =>
    unfold waits
    rw [hx]
    dsimp only
    rw [ih]
    rfl

/-! ## Handles of the driver -/

theorem full_count : ∀ (q t : List Nat), q.Nodup → (∀ n ∈ q, t.count n = maxGroup) → maxGroup * q.length ≤ t.length := by
  intro q
  induction q with
  | nil => intro t _ _; simp
  | cons a q ih =>
    intro t hn hc
    rw [List.nodup_cons] at hn
    have h1 := ih (t.filter (fun y => y ≠ a)) hn.2 (by
      intro n hq
      have hne : n ≠ a := fun e => hn.1 (e ▸ hq)
      rw [List.count_filter (by simpa using hne)]
      exact hc n (by simp [hq]))
    have h2 : t.length = t.count a + (t.filter (fun y => y ≠ a)).length := by
      clear ih hn hc h1
      induction t with
      | nil => rfl
      | cons b t ih =>
        rw [List.length_cons, List.count_cons, List.filter_cons]
        by_cases e : b = a
        · simp only [e, beq_self_eq_true, if_true, ne_eq, not_true_eq_false, decide_false, Bool.false_eq_true, if_false]
          rw [ih]
          simp only [ne_eq]
          omega
        · simp only [beq_iff_eq, e, if_false, ne_eq, not_false_eq_true, decide_true, if_true, List.length_cons]
          rw [ih]
          simp only [ne_eq]
          omega
    have h3 := hc a (by simp)
    rw [List.length_cons, Nat.mul_succ]
    omega

/-- The states of an execution. -/
inductive Along (P : Port → Prop) : Port → List (Op × Ans) → Port → Prop
  | nil {p} : P p → Along P p [] p
  | cons {p op a p1 t p'} : P p → Env p op → exec p op = some (p1, a) → Along P p1 t p' → Along P p ((op, a) :: t) p'

/-- C152: a handle of the driver serves at most 32 sockets. -/
theorem handle_serves_32 {p} (h : Reach p) : ∀ x ∈ p.alive,
    (p.sock x).group ∈ p.g.q ∧ (p.alive.filter fun y => (p.sock y).group = (p.sock x).group).length ≤ 32 := by
  intro x hx
  have hi := h.inv.base.gi
  have hg : (p.sock x).group ∈ tokens p := List.mem_map.2 ⟨x, hx, rfl⟩
  refine ⟨hi.mem _ hg, ?_⟩
  have := hi.cnt _ (hi.mem _ hg)
  have e : (tokens p).count (p.sock x).group = (p.alive.filter fun y => (p.sock y).group = (p.sock x).group).length := by
    unfold tokens
    rw [List.count, List.countP_map, List.countP_eq_length_filter]
    congr 1
  rw [← e, ← this.1]
  exact this.2

theorem handles_grow {M : Nat} {p t p'} (h : Along (fun p => p.alive.length ≤ M) p t p') : Inv p → 32 * p.g.q.length ≤ M + 32 → 32 * p'.g.q.length ≤ M + 32 := by
  induction h with
  | nil => intro _ h; exact h
  | cons hP he hx _ ih =>
    rename_i p op a p1 t p' _
    intro hi hb
    have f := (exec_facts hi he hx).1
    refine ih f.inv ?_
    rcases f.grow with q | ⟨q, hf⟩
    · rw [q]; exact hb
    · have := full_count p.g.q (tokens p) hi.base.gi.nd (fun n hn => by rw [← (hi.base.gi.cnt n hn).1]; exact hf n hn)
      have hlen : (tokens p).length = p.alive.length := by unfold tokens; rw [List.length_map]
      rw [q]
      unfold maxGroup at this
      omega

/-- C152: if there were never more than `M` sockets (with those whose removal is not finished), there are at most `M / 32 + 1` handles of
the driver. -/
theorem few_handles {M sock size t p} (h : Along (fun p => p.alive.length ≤ M) (port0 sock size) t p) : p.g.q.length ≤ M / 32 + 1 := by
  have := handles_grow h (port0_inv sock size) (by simp [port0])
  omega

/-! ## Events of the driver -/

theorem has_or (x y b : Mask) : has (x ||| y) b = (has x b || has y b) := by
  unfold has
  have h : ∀ z : Mask, (z != 0) = true ↔ ∃ i, z.getLsbD i = true := by
    intro z
    rw [bne_iff_ne]
    constructor
    · intro hz
      by_contra hq
      refine hz (BitVec.eq_of_getLsbD_eq fun i _ => ?_)
      cases e : z.getLsbD i with
      | true => exact absurd ⟨i, e⟩ hq
      | false => simp
    · rintro ⟨i, hi⟩ rfl
      simp at hi
  rw [Bool.eq_iff_iff, Bool.or_eq_true, h, h, h]
  simp only [BitVec.getLsbD_and, BitVec.getLsbD_or, Bool.and_eq_true, Bool.or_eq_true]
  constructor
  · rintro ⟨i, h1 | h1, h2⟩
    · exact Or.inl ⟨i, h1, h2⟩
    · exact Or.inr ⟨i, h1, h2⟩
  · rintro (⟨i, h1, h2⟩ | ⟨i, h1, h2⟩)
    · exact ⟨i, Or.inl h1, h2⟩
    · exact ⟨i, Or.inr h1, h2⟩

theorem has_comm (x y : Mask) : has x y = has y x := by unfold has; rw [BitVec.and_comm]

theorem has_or' (x b c : Mask) : has x (b ||| c) = (has x b || has x c) := by rw [has_comm, has_or, has_comm b, has_comm c]

theorem has_orIf (c : Bool) (r m b : Mask) : has (orIf c r m) b = (has r b || (c && has m b)) := by
  unfold orIf
  cases c with
  | true => rw [if_pos rfl, has_or]; simp
  | false => simp

/-- What a driver event means, for every event but the closing of the socket: the events of which a user is told. -/
def meaning : List (Mask × List Mask) :=
  [(afdReceive, [epollIn, epollRdnorm]), (afdExpedited, [epollPri, epollRdband]), (afdSend, [epollOut, epollWrnorm, epollWrband]),
   (afdDisconnect, [epollIn, epollRdnorm, epollRdhup]), (afdAbort, [epollHup]), (afdAccept, [epollIn, epollRdnorm]),
   (afdConnectFail, [epollIn, epollOut, epollErr, epollRdnorm, epollWrnorm, epollRdhup])]

/-- Masks that occur as registrations. -/
def Registered (m : Mask) : Prop := m = 0 ∨ (has m epollErr = true ∧ has m epollHup = true)

theorem mask_has (ev : Mask) : has (ev ||| epollErr ||| epollHup) epollErr = true ∧ has (ev ||| epollErr ||| epollHup) epollHup = true := by
  rw [has_or, has_or, has_or, has_or, show has epollErr epollErr = true by decide, show has epollHup epollHup = true by decide]
  simp

theorem has_zero (b : Mask) : has 0 b = false := by unfold has; simp

/-- C151: the driver is asked for exactly the events of which the user would be told: for every driver event (but the closing of the
socket, which is always asked for), it is asked for if and only if one of the events it means is registered. -/
theorem asked_iff_wanted {m} (hm : Registered m) : ∀ e ∈ meaning, has (toAfd m) e.1 = true ↔ ∃ b ∈ e.2, has m b = true := by
  intro e he
  simp only [meaning, List.mem_cons, List.not_mem_nil, or_false] at he
  unfold toAfd
  simp only [has_orIf, has_or']
  rcases he with rfl | rfl | rfl | rfl | rfl | rfl | rfl
  · simp [show has afdLocalClose afdReceive = false by decide, show has (afdReceive ||| afdAccept) afdReceive = true by decide,
      show has afdExpedited afdReceive = false by decide, show has afdSend afdReceive = false by decide,
      show has afdDisconnect afdReceive = false by decide, show has afdAbort afdReceive = false by decide,
      show has afdConnectFail afdReceive = false by decide]
  · simp [show has afdLocalClose afdExpedited = false by decide, show has (afdReceive ||| afdAccept) afdExpedited = false by decide,
      show has afdExpedited afdExpedited = true by decide, show has afdSend afdExpedited = false by decide,
      show has afdDisconnect afdExpedited = false by decide, show has afdAbort afdExpedited = false by decide,
      show has afdConnectFail afdExpedited = false by decide]
  · simp [show has afdLocalClose afdSend = false by decide, show has (afdReceive ||| afdAccept) afdSend = false by decide,
      show has afdExpedited afdSend = false by decide, show has afdSend afdSend = true by decide,
      show has afdDisconnect afdSend = false by decide, show has afdAbort afdSend = false by decide,
      show has afdConnectFail afdSend = false by decide, or_assoc]
  · simp [show has afdLocalClose afdDisconnect = false by decide, show has (afdReceive ||| afdAccept) afdDisconnect = false by decide,
      show has afdExpedited afdDisconnect = false by decide, show has afdSend afdDisconnect = false by decide,
      show has afdDisconnect afdDisconnect = true by decide, show has afdAbort afdDisconnect = false by decide,
      show has afdConnectFail afdDisconnect = false by decide, or_assoc]
  · simp [show has afdLocalClose afdAbort = false by decide, show has (afdReceive ||| afdAccept) afdAbort = false by decide,
      show has afdExpedited afdAbort = false by decide, show has afdSend afdAbort = false by decide,
      show has afdDisconnect afdAbort = false by decide, show has afdAbort afdAbort = true by decide,
      show has afdConnectFail afdAbort = false by decide]
  · simp [show has afdLocalClose afdAccept = false by decide, show has (afdReceive ||| afdAccept) afdAccept = true by decide,
      show has afdExpedited afdAccept = false by decide, show has afdSend afdAccept = false by decide,
      show has afdDisconnect afdAccept = false by decide, show has afdAbort afdAccept = false by decide,
      show has afdConnectFail afdAccept = false by decide]
  · simp only [show has afdLocalClose afdConnectFail = false by decide, show has (afdReceive ||| afdAccept) afdConnectFail = false by decide,
      show has afdExpedited afdConnectFail = false by decide, show has afdSend afdConnectFail = false by decide,
      show has afdDisconnect afdConnectFail = false by decide, show has afdAbort afdConnectFail = false by decide,
      show has afdConnectFail afdConnectFail = true by decide, Bool.and_false, Bool.or_false, Bool.false_or, Bool.and_true]
    rcases hm with q | q
    · rw [q]
      simp only [has_zero]
      simp
    · rw [q.1]
      simp only [true_iff]
      exact ⟨epollErr, by simp, q.1⟩

/-- C151: the user is told exactly what the driver events mean. -/
theorem told_iff_meant (a b : Mask) : has (toEpoll a) b = true ↔ ∃ e ∈ meaning, has a e.1 = true ∧ ∃ c ∈ e.2, has c b = true := by
  have hor : ∀ l : List Mask, (∃ c ∈ l, has c b = true) ↔ has (l.foldr (fun x y => x ||| y) 0) b = true := by
    intro l
    induction l with
    | nil => simp only [List.not_mem_nil, false_and, exists_false, List.foldr_nil, has_zero]; simp
    | cons c l ih =>
      rw [List.foldr_cons, has_or, Bool.or_eq_true, ← ih]
      simp
  simp only [hor]
  unfold toEpoll meaning
  simp only [has_orIf, has_or' a, has_zero, List.mem_cons, List.not_mem_nil, or_false, exists_eq_left, Bool.or_eq_true,
    Bool.and_eq_true, Bool.false_or, or_and_right, exists_or]
  rw [show [epollIn, epollRdnorm].foldr (fun x y => x ||| y) 0 = epollIn ||| epollRdnorm by decide,
    show [epollPri, epollRdband].foldr (fun x y => x ||| y) 0 = epollPri ||| epollRdband by decide,
    show [epollOut, epollWrnorm, epollWrband].foldr (fun x y => x ||| y) 0 = epollOut ||| epollWrnorm ||| epollWrband by decide,
    show [epollIn, epollRdnorm, epollRdhup].foldr (fun x y => x ||| y) 0 = epollIn ||| epollRdnorm ||| epollRdhup by decide,
    show [epollHup].foldr (fun x y => x ||| y) 0 = epollHup by decide,
    show [epollIn, epollOut, epollErr, epollRdnorm, epollWrnorm, epollRdhup].foldr (fun x y => x ||| y) 0 =
      epollIn ||| epollOut ||| epollErr ||| epollRdnorm ||| epollWrnorm ||| epollRdhup by decide]
  apply iff_of_eq
  ac_rfl

/-- The masks of all registrations have the bits for errors, or are empty. -/
theorem registered_masks {p t p'} (h : Exec p t p') : Inv p → (∀ k m d, p.regs k = some (m, d) → Registered m) →
    ∀ k m d, p'.regs k = some (m, d) → Registered m := by
  induction h with
  | nil => intro _ h; exact h
  | cons he hx _ ih =>
    rename_i p op a p1 t p' _
    intro hi hr
    refine ih (exec_facts hi he hx).1.inv ?_
    intro k m d hk
    by_cases hs : op.sets d
    · have hsp := (exec_facts hi he hx).2.1
      have hdrop : ∀ {r : Regs} {o : Orc}, Drop r p1.regs o → r k = some (m, d) := by
        intro r o hd
        rcases hd k with q | q
        · rw [← q, hk]
        · rw [q.1] at hk; cases hk
      cases op with
      | add key ev data o =>
        obtain ⟨_, h2⟩ := hsp
        split at h2
        · have := hdrop h2.2
          unfold upd1 at this
          split at this
          · simp only [Option.some.injEq, Prod.mk.injEq] at this
            rw [← this.1]
            exact Or.inr (mask_has ev)
          · exact hr k m d this
        · rw [h2.1] at hk
          exact hr k m d hk
      | mod key ev data o =>
        obtain ⟨_, _, h2⟩ := hsp
        split at h2
        · have := hdrop h2
          unfold upd1 at this
          split at this
          · simp only [Option.some.injEq, Prod.mk.injEq] at this
            rw [← this.1]
            exact Or.inr (mask_has ev)
          · exact hr k m d this
        · rw [h2] at hk
          exact hr k m d hk
      | del => exact hs.elim
      | wait => exact hs.elim
      | packets => exact hs.elim
    · rcases regs_after hi he hx hs k m hk with q | q
      · exact hr k m d q
      · exact Or.inl q.1

/-- C151: if the driver answers a request (with events that it was asked for, not the closing of the socket), then the answer has
requested events: no request is answered in vain, so `epoll_wait` does not spin. -/
theorem answer_not_in_vain {p k m d} (h : Reach p) (hr : p.regs k = some (m, d)) {e : Mask × List Mask} (he : e ∈ meaning) {a : Mask}
    (ha : has a e.1 = true) (hs : has (toAfd m) e.1 = true) : toEpoll a &&& m ≠ 0 := by
  obtain ⟨sock, size, t, ht⟩ := h
  have hm := registered_masks ht (port0_inv sock size) (by intro k m d q; simp [Port.regs, Port.find, port0] at q) k m d hr
  obtain ⟨b, hb, hbm⟩ := (asked_iff_wanted hm e he).1 hs
  have := (told_iff_meant a m).2 ⟨e, he, ha, b, hb, by rw [has_comm]; exact hbm⟩
  unfold has at this
  simpa using this

/-- C151, what is missing: a message event may be registered but is never reported. -/
theorem message_never_reported (a : Mask) : has (toEpoll a) epollMsg = false := by
  unfold toEpoll
  simp only [has_orIf, has_or, has_zero]
  simp [show has epollIn epollMsg = false by decide, show has epollRdnorm epollMsg = false by decide, show has epollPri epollMsg = false by decide,
    show has epollRdband epollMsg = false by decide, show has epollOut epollMsg = false by decide, show has epollWrnorm epollMsg = false by decide,
    show has epollWrband epollMsg = false by decide, show has epollRdhup epollMsg = false by decide, show has epollHup epollMsg = false by decide,
    show has epollErr epollMsg = false by decide]

/-! ## Cases -/

/-- A system that does everything; the block 1 and the group 1 are free. -/
def good : Orc := ⟨true, some 1, some 1, fun _ => .started, fun _ => true⟩

/-- A system that refuses the request for the socket 5. -/
def refuse5 : Orc := ⟨true, some 1, some 1, fun k => if k = 5 then .failed else .started, fun _ => true⟩

def sock0 : Nat → Sock := fun _ => ⟨0, 0, 0, 0, .idle, false, 0⟩

/-- After adding the socket 5 for input, one time, with data 77. -/
def pAdded : Port := ((exec (port0 sock0 fun _ => 0) (.add 5 (epollIn ||| epollOneshot) 77 good)).getD (port0 sock0 fun _ => 0, ⟨false, []⟩)).1

/-- And a thread waits. -/
def pWaiting : Port := ((exec pAdded (.wait good good)).getD (pAdded, ⟨false, []⟩)).1

theorem exec_added : Exec (port0 sock0 fun _ => 0) [(.add 5 (epollIn ||| epollOneshot) 77 good, ⟨true, []⟩)] pAdded :=
  .cons ⟨by simp [port0], by simp [port0]⟩ rfl (.nil _)

theorem exec_waiting : Exec (port0 sock0 fun _ => 0) [(.add 5 (epollIn ||| epollOneshot) 77 good, ⟨true, []⟩), (.wait good good, ⟨true, []⟩)] pWaiting :=
  .cons ⟨by simp [port0], by simp [port0]⟩ rfl (.cons trivial rfl (.nil _))

theorem reach_added : Reach pAdded := ⟨_, _, _, exec_added⟩
theorem reach_waiting : Reach pWaiting := ⟨_, _, _, exec_waiting⟩

example : pWaiting.io = [1] ∧ pWaiting.alive = [1] ∧ pWaiting.waiting = 1 ∧ pWaiting.owner 1 = some 5 ∧
    pWaiting.regs 5 = some (epollIn ||| epollOneshot ||| epollErr ||| epollHup, 77) := by
  refine ⟨rfl, rfl, rfl, rfl, ?_⟩
  decide

theorem env_packets : Env pWaiting (.packets [(1, .events afdReceive)] true good good) := by
  refine ⟨by simp, ?_, by decide⟩
  intro x hx
  simp only [List.map_cons, List.map_nil, List.mem_singleton] at hx
  rw [hx]
  decide

/-- The packet is reported once, and the registration asks for nothing afterwards. -/
example : ∃ p', exec pWaiting (.packets [(1, .events afdReceive)] true good good) = some (p', ⟨true, [(77, epollIn)]⟩) ∧
    p'.regs 5 = some (0, 77) := ⟨_, rfl, by decide⟩

example : (77, epollIn) ∈ (⟨true, [(77, epollIn)]⟩ : Ans).events :=
  requested_events_reported (x := 1) (key := 5) (a := afdReceive) (m := epollIn ||| epollOneshot ||| epollErr ||| epollHup) (d := 77)
    reach_waiting env_packets rfl (by simp) rfl (by decide) (by decide) (by decide)

theorem env_failed : Env pWaiting (.packets [(1, .failed)] true good good) := by
  refine ⟨by simp, ?_, by decide⟩
  intro x hx
  simp only [List.map_cons, List.map_nil, List.mem_singleton] at hx
  rw [hx]
  decide

example : ∃ p' ans, exec pWaiting (.packets [(1, .failed)] true good good) = some (p', ans) ∧ (77, epollErr) ∈ ans.events :=
  ⟨_, _, rfl, failed_request_reported (x := 1) (key := 5) (m := epollIn ||| epollOneshot ||| epollErr ||| epollHup) (d := 77)
    reach_waiting env_failed rfl (by simp) rfl (by decide) (by decide)⟩

example : ∃ x ∈ pWaiting.io, (pWaiting.sock x).key = 5 :=
  let ⟨x, h, k, _⟩ := watched_while_waiting_partial (key := 5) (m := epollIn ||| epollOneshot ||| epollErr ||| epollHup) (d := 77) exec_waiting
    (by
      intro e he
      have hg : ¬ Bad good := by
        rintro ⟨k, q | q⟩ <;> simp [good] at q
      simp only [List.mem_cons, List.not_mem_nil, or_false] at he
      rcases he with rfl | rfl
      · exact hg
      · exact fun q => q.elim hg hg) (by decide) (by decide)
  ⟨x, h, k⟩

/-- The socket removed while its request is outstanding: the block stays until the packet comes. -/
example : ∃ p', exec pWaiting (.del 5 good) = some (p', ⟨true, []⟩) ∧ p'.alive = [1] ∧ p'.io = [1] ∧ p'.regs 5 = none := ⟨_, rfl, rfl, rfl, by decide⟩

example : waits refuse5 3 pAdded = some (pAdded, [false, false, false]) :=
  one_refused_socket_blocks_all (x := 1) (l := []) reach_added rfl rfl rfl 3

example : ∃ p', portDelete pWaiting (fun l => (l.map (·.2)).headD 0) (fun _ => true) = some p' ∧ 1 ∈ p'.io ∧ 1 ∉ p'.alive :=
  close_frees_blocks_of_requests reach_waiting (by
    intro l hl
    cases l with
    | nil => exact absurd rfl hl
    | cons a l => simp) (by decide)

example : Registered (epollOut ||| epollErr ||| epollHup) ∧ has (toAfd (epollOut ||| epollErr ||| epollHup)) afdSend = true :=
  ⟨Or.inr (mask_has epollOut), by decide⟩

end Verif.Wepoll.Ep
