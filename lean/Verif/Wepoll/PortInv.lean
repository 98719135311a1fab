import Verif.Wepoll.Port

/-!
# Sockets of an epoll set and their poll requests: invariant
-/

namespace Verif.Wepoll.Ep

/-! ## Poll groups -/

/-- `t` lists the group of every block in use. -/
structure GInv (g : G) (t : List Nat) : Prop where
  nd : g.q.Nodup
  cnt : ∀ n ∈ g.q, g.size n = t.count n ∧ g.size n ≤ maxGroup
  mem : ∀ n ∈ t, n ∈ g.q
  ord : g.q.Pairwise (fun a b => g.size a < maxGroup → g.size b < maxGroup)

theorem GInv.perm {g t t'} (h : GInv g t) (hp : t.Perm t') : GInv g t' :=
  ⟨h.nd, fun n hn => by rw [← hp.count_eq]; exact h.cnt n hn, fun n hn => h.mem n (hp.mem_iff.2 hn), h.ord⟩

theorem setN_same (f : Nat → Nat) (x v) : setN f x v x = v := by simp [setN]
theorem setN_ne (f : Nat → Nat) {x z} (v) (h : z ≠ x) : setN f x v z = f z := by simp [setN, h]

theorem gNew_ok {g t new} (h : GInv g t) (hn : ∀ n, new = some n → n ∉ g.q) :
    (gNew g new = none ∧ new = none) ∨
      ∃ n g' q, gNew g new = some (n, g') ∧ GInv g' t ∧ g'.q = q ++ [n] ∧ g'.size n < maxGroup ∧ new = some n ∧ q = g.q := by
  cases new with
  | none => exact Or.inl ⟨rfl, rfl⟩
  | some n =>
    have hnq := hn n rfl
    refine Or.inr ⟨n, _, g.q, rfl, ⟨?_, ?_, ?_, ?_⟩, rfl, ?_, rfl, rfl⟩
    · show (g.q ++ [n]).Nodup
      rw [List.nodup_append]
      refine ⟨h.nd, by simp, ?_⟩
      intro a ha b hb
      rw [List.mem_singleton] at hb
      subst hb
      exact fun e => hnq (e ▸ ha)
    · intro m hm
      by_cases e : m = n
      · subst e
        dsimp only
        rw [setN_same]
        refine ⟨?_, by simp⟩
        rw [eq_comm, List.count_eq_zero]
        exact fun q => hnq (h.mem m q)
      · dsimp only
        rw [setN_ne _ _ e]
        exact h.cnt m (by simpa [e] using hm)
    · intro m hm
      exact List.mem_append_left _ (h.mem m hm)
    · show (g.q ++ [n]).Pairwise _
      rw [List.pairwise_append]
      refine ⟨?_, by simp, ?_⟩
      · refine h.ord.imp_of_mem ?_
        intro a b ha hb hab
        dsimp only
        rw [setN_ne _ _ (fun e : a = n => hnq (e ▸ ha)), setN_ne _ _ (fun e : b = n => hnq (e ▸ hb))]
        exact hab
      · intro a _ b hb _
        rw [List.mem_singleton] at hb
        subst hb
        dsimp only
        rw [setN_same]
        decide
    · show setN g.size n 0 n < maxGroup
      rw [setN_same]
      decide

/-- The last group is full only if all are. -/
theorem all_full {g t l} (h : GInv g t) (hl : g.q.getLast? = some l) (hf : maxGroup ≤ g.size l) : ∀ n ∈ g.q, g.size n = maxGroup := by
  intro n hn
  have hle := (h.cnt n hn).2
  obtain ⟨q, hq⟩ := List.getLast?_eq_some_iff.1 hl
  have ho := h.ord
  rw [hq] at hn ho
  rw [List.mem_append, List.mem_singleton] at hn
  rcases hn with hn | rfl
  · rw [List.pairwise_append] at ho
    have := ho.2.2 n hn l (by simp)
    omega
  · omega

theorem gPick_ok {g t new} (h : GInv g t) (hn : ∀ n, new = some n → n ∉ g.q) :
    (gPick g new = none ∧ new = none) ∨
      ∃ n g' q, gPick g new = some (n, g') ∧ GInv g' t ∧ g'.q = q ++ [n] ∧ g'.size n < maxGroup ∧
        (g' = g ∨ (new = some n ∧ q = g.q ∧ ∀ m ∈ g.q, g.size m = maxGroup)) := by
  have lift := gNew_ok h hn
  unfold gPick
  cases hl : g.q.getLast? with
  | none =>
    have hq := List.getLast?_eq_none_iff.1 hl
    have hf : ∀ n ∈ g.q, g.size n = maxGroup := by rw [hq]; simp
    rcases lift with ⟨a, b⟩ | ⟨n, g', q, a, b, c, d, e, f⟩
    · exact Or.inl ⟨a, b⟩
    · exact Or.inr ⟨n, g', q, a, b, c, d, Or.inr ⟨e, f, hf⟩⟩
  | some l =>
    dsimp only
    split
    · rename_i hle
      have hf := all_full h hl hle
      rcases lift with ⟨a, b⟩ | ⟨n, g', q, a, b, c, d, e, f⟩
      · exact Or.inl ⟨a, b⟩
      · exact Or.inr ⟨n, g', q, a, b, c, d, Or.inr ⟨e, f, hf⟩⟩
    · rename_i hle
      obtain ⟨q, hq⟩ := List.getLast?_eq_some_iff.1 hl
      exact Or.inr ⟨l, g, q, rfl, h, hq, by omega, Or.inl rfl⟩

theorem gAcquire_ok {g t new} (h : GInv g t) (hn : ∀ n, new = some n → n ∉ g.q) :
    (gAcquire g new = none ∧ new = none) ∨ ∃ n g', gAcquire g new = some (n, g') ∧ GInv g' (n :: t) ∧
      (g'.q.length = g.q.length ∨ (g'.q.length = g.q.length + 1 ∧ ∀ m ∈ g.q, g.size m = maxGroup)) := by
  rcases gPick_ok h hn with ⟨a, b⟩ | ⟨n, g', q, a, hg, hq, hlt, hnew⟩
  · refine Or.inl ⟨?_, b⟩
    unfold gAcquire
    rw [a]
  · refine Or.inr ?_
    have hlen : g'.q.length = g.q.length ∨ (g'.q.length = g.q.length + 1 ∧ ∀ m ∈ g.q, g.size m = maxGroup) := by
      rcases hnew with e | ⟨_, e, hf⟩
      · rw [e]; exact Or.inl rfl
      · exact Or.inr ⟨by rw [hq, e]; simp, hf⟩
    unfold gAcquire
    rw [a]
    dsimp only
    have hnq : n ∈ g'.q := by rw [hq]; simp
    have hnq' : n ∉ q := by
      have := hg.nd
      rw [hq, List.nodup_append] at this
      exact fun e => this.2.2 n e n (by simp) rfl
    have hcnt : ∀ m ∈ g'.q, setN g'.size n (g'.size n + 1) m = (n :: t).count m ∧ setN g'.size n (g'.size n + 1) m ≤ maxGroup := by
      intro m hm
      by_cases e : m = n
      · subst e
        rw [setN_same, List.count_cons_self, (hg.cnt m hm).1]
        have := (hg.cnt m hm).1
        exact ⟨rfl, by omega⟩
      · rw [setN_ne _ _ e, List.count_cons_of_ne (Ne.symm e)]
        exact hg.cnt m hm
    split
    · rename_i hfull
      have hlf : (n :: g'.q.filter (fun y => y ≠ n)).length = g'.q.length := by
        have h1 := (List.perm_cons_erase hnq).length_eq
        rw [List.Nodup.erase_eq_filter hg.nd] at h1
        rw [h1]
        simp only [List.length_cons]
        congr 2
        apply List.filter_congr
        intro a _
        by_cases e : a = n <;> simp [e]
      refine ⟨n, _, rfl, ⟨?_, ?_, ?_, ?_⟩, by rw [hlf]; exact hlen⟩
      · rw [List.nodup_cons]
        exact ⟨by simp, hg.nd.filter _⟩
      · intro m hm
        refine hcnt m ?_
        have hm' : m = n ∨ m ∈ g'.q.filter (fun y => y ≠ n) := List.mem_cons.1 hm
        rcases hm' with rfl | hm'
        · exact hnq
        · exact (List.mem_filter.1 hm').1
      · intro m hm
        show m ∈ n :: g'.q.filter (fun y => y ≠ n)
        by_cases e : m = n
        · simp [e]
        · rw [List.mem_cons] at hm
          have := hg.mem m (hm.resolve_left e)
          simp [e, this]
      · show (n :: g'.q.filter (fun y => y ≠ n)).Pairwise _
        rw [List.pairwise_cons]
        constructor
        · intro b _ hb
          dsimp only at hb
          omega
        · refine (hg.ord.filter _).imp_of_mem ?_
          intro a b ha hb hab
          rw [List.mem_filter] at ha hb
          dsimp only
          rw [setN_ne _ _ (by simpa using ha.2), setN_ne _ _ (by simpa using hb.2)]
          exact hab
    · rename_i hfull
      refine ⟨n, _, rfl, ⟨hg.nd, hcnt, ?_, ?_⟩, hlen⟩
      · intro m hm
        rw [List.mem_cons] at hm
        rcases hm with rfl | hm
        · exact hnq
        · exact hg.mem m hm
      · have ho := hg.ord
        show g'.q.Pairwise _
        rw [hq, List.pairwise_append] at ho ⊢
        refine ⟨?_, by simp, ?_⟩
        · refine ho.1.imp_of_mem ?_
          intro a b ha hb hab
          dsimp only
          rw [setN_ne _ _ (fun e : a = n => hnq' (e ▸ ha)), setN_ne _ _ (fun e : b = n => hnq' (e ▸ hb))]
          exact hab
        · intro a _ b hb _
          rw [List.mem_singleton] at hb
          subst hb
          have := (hcnt b hnq).2
          dsimp only
          omega

theorem gRelease_ok {g t n t'} (h : GInv g t) (hp : t.Perm (n :: t')) :
    ∃ g', gRelease g n = some g' ∧ GInv g' t' ∧ g'.q.length = g.q.length := by
  have h := h.perm hp
  have hnq := h.mem n (by simp)
  have hc := h.cnt n hnq
  rw [List.count_cons_self] at hc
  unfold gRelease
  rw [if_pos ⟨hnq, by omega, by omega⟩]
  have hlf : (g.q.filter (fun y => y ≠ n) ++ [n]).length = g.q.length := by
    have h1 := (List.perm_cons_erase hnq).length_eq
    rw [List.Nodup.erase_eq_filter h.nd] at h1
    rw [h1]
    simp only [List.length_append, List.length_cons, List.length_nil]
    congr 2
    apply List.filter_congr
    intro a _
    by_cases e : a = n <;> simp [e]
  refine ⟨_, rfl, ⟨?_, ?_, ?_, ?_⟩, hlf⟩
  · show (g.q.filter (fun y => y ≠ n) ++ [n]).Nodup
    rw [List.nodup_append]
    refine ⟨h.nd.filter _, by simp, ?_⟩
    intro a ha b hb
    rw [List.mem_singleton] at hb
    rw [List.mem_filter] at ha
    rw [hb]
    simpa using ha.2
  · intro m hm
    have hmq : m ∈ g.q := by
      have hm' : m ∈ g.q.filter (fun y => y ≠ n) ++ [n] := hm
      rw [List.mem_append, List.mem_singleton, List.mem_filter] at hm'
      rcases hm' with hm' | rfl
      · exact hm'.1
      · exact hnq
    by_cases e : m = n
    · subst e
      dsimp only
      rw [setN_same]
      omega
    · dsimp only
      rw [setN_ne _ _ e]
      have := h.cnt m hmq
      rw [List.count_cons_of_ne (Ne.symm e)] at this
      exact this
  · intro m hm
    have := h.mem m (by simp [hm])
    show m ∈ g.q.filter (fun y => y ≠ n) ++ [n]
    by_cases e : m = n
    · simp [e]
    · simp [e, this]
  · show (g.q.filter (fun y => y ≠ n) ++ [n]).Pairwise _
    rw [List.pairwise_append]
    refine ⟨?_, by simp, ?_⟩
    · refine (h.ord.filter _).imp_of_mem ?_
      intro a b ha hb hab
      rw [List.mem_filter] at ha hb
      dsimp only
      rw [setN_ne _ _ (by simpa using ha.2), setN_ne _ _ (by simpa using hb.2)]
      exact hab
    · intro a _ b hb _
      rw [List.mem_singleton] at hb
      subst hb
      dsimp only
      rw [setN_same]
      omega

/-! ## Blocks -/

/-- The group of every block. -/
def tokens (p : Port) : List Nat := p.alive.map (fun x => (p.sock x).group)

/-- Everything but the requests. -/
structure Base (p : Port) : Prop where
  an : p.alive.Nodup
  tk : (p.tree.map (·.1)).Nodup
  tr : ∀ k x, (k, x) ∈ p.tree ↔ x ∈ p.alive ∧ (p.sock x).del = false ∧ (p.sock x).key = k
  un : p.upd.Nodup
  um : ∀ x ∈ p.upd, x ∈ p.alive ∧ (p.sock x).del = false
  dn : p.dels.Nodup
  dm : ∀ x ∈ p.dels, x ∈ p.alive ∧ (p.sock x).del = true
  gi : GInv p.g (tokens p)

/-- The requests. -/
structure Io (p : Port) : Prop where
  nd : p.io.Nodup
  mem : ∀ x, x ∈ p.io ↔ x ∈ p.alive ∧ (p.sock x).status ≠ .idle

/-- A block is looked after: a deleted one waits for its packet; any other one will get a request, or has one which covers the events
wanted, or waits for the packet of a cancelled request. -/
def Cov (p : Port) (x : Nat) : Prop :=
  x ∈ p.alive →
    ((p.sock x).del = true → x ∈ p.dels ∧ (p.sock x).status ≠ .idle) ∧
    ((p.sock x).del = false →
      x ∈ p.upd ∨ (p.sock x).status = .cancelled ∨ ((p.sock x).status = .pending ∧ covered (p.sock x) = true))

structure Inv (p : Port) : Prop where
  base : Base p
  io : Io p
  cov : ∀ x, Cov p x

@[simp] theorem set_same (p : Port) (x s) : (p.set x s).sock x = s := by simp [Port.set]
theorem set_ne (p : Port) {x z} (s) (h : z ≠ x) : (p.set x s).sock z = p.sock z := by simp [Port.set, h]

theorem filter_self {l : List Nat} {x : Nat} (h : x ∉ l) : l.filter (fun y => y ≠ x) = l := by
  rw [List.filter_eq_self]
  intro a ha
  simpa using fun e : a = x => h (e ▸ ha)

theorem mem_out {l : List Nat} {x y : Nat} : y ∈ l.filter (fun z => z ≠ x) ↔ y ∈ l ∧ y ≠ x := by simp [List.mem_filter]

theorem dequeue_eq (p : Port) (x : Nat) : p.dequeue x = p.unq x := by
  unfold Port.dequeue
  split
  · rename_i h
    simp only [Port.enq, Bool.not_eq_true', decide_eq_false_iff_not, not_or] at h
    unfold Port.unq
    rw [filter_self h.1, filter_self h.2]
  · rfl

theorem perm_out {l : List Nat} {x : Nat} (f : Nat → Nat) (hn : l.Nodup) (hx : x ∈ l) :
    (l.map f).Perm (f x :: (l.filter (fun y => y ≠ x)).map f) := by
  have h1 : l.Perm (x :: l.filter (fun y => y ≠ x)) := by
    have h2 := List.perm_cons_erase hx
    rw [List.Nodup.erase_eq_filter hn] at h2
    have h3 : l.filter (fun y => y != x) = l.filter (fun y => y ≠ x) := by
      apply List.filter_congr
      intro a _
      by_cases e : a = x <;> simp [e]
    rw [← h3]
    exact h2
  exact h1.map f

/-- Changing a block without changing who it is. -/
theorem base_set {p : Port} {x : Nat} {s : Sock} (io' : List Nat) (h : Base p) (hk : s.key = (p.sock x).key) (hd : s.del = (p.sock x).del)
    (hg : s.group = (p.sock x).group) : Base ({ p with io := io' }.set x s) := by
  have e : ∀ z, (({ p with io := io' }.set x s).sock z).key = (p.sock z).key ∧ (({ p with io := io' }.set x s).sock z).del = (p.sock z).del ∧
      (({ p with io := io' }.set x s).sock z).group = (p.sock z).group := by
    intro z
    by_cases q : z = x
    · subst q
      rw [set_same]
      exact ⟨hk, hd, hg⟩
    · rw [set_ne _ _ q]
      exact ⟨rfl, rfl, rfl⟩
  refine ⟨h.an, h.tk, ?_, h.un, ?_, h.dn, ?_, ?_⟩
  · intro k z
    rw [(e z).1, (e z).2.1]
    exact h.tr k z
  · intro z hz
    rw [(e z).2.1]
    exact h.um z hz
  · intro z hz
    rw [(e z).2.1]
    exact h.dm z hz
  · have : tokens ({ p with io := io' }.set x s) = tokens p := by
      unfold tokens
      apply List.map_congr_left
      intro z _
      exact (e z).2.2
    rw [this]
    exact h.gi

theorem base_set' {p : Port} {x : Nat} {s : Sock} (h : Base p) (hk : s.key = (p.sock x).key) (hd : s.del = (p.sock x).del)
    (hg : s.group = (p.sock x).group) : Base (p.set x s) := base_set p.io h hk hd hg

theorem base_unq {p : Port} (x : Nat) (h : Base p) : Base (p.unq x) :=
  ⟨h.an, h.tk, h.tr, h.un.filter _, fun z hz => h.um z (mem_out.1 hz).1, h.dn.filter _, fun z hz => h.dm z (mem_out.1 hz).1, h.gi⟩

/-- Nothing that a user sees of the blocks has changed. -/
def Keep (p p' : Port) : Prop := ∀ y, (p'.sock y).key = (p.sock y).key ∧ (p'.sock y).user = (p.sock y).user ∧ (p'.sock y).data = (p.sock y).data

theorem Keep.refl (p : Port) : Keep p p := fun _ => ⟨rfl, rfl, rfl⟩

theorem Keep.trans {p p' p'' : Port} (h : Keep p p') (h' : Keep p' p'') : Keep p p'' :=
  fun y => ⟨(h' y).1.trans (h y).1, (h' y).2.1.trans (h y).2.1, (h' y).2.2.trans (h y).2.2⟩

theorem keep_set {p : Port} {x : Nat} {s : Sock} (hk : s.key = (p.sock x).key) (hu : s.user = (p.sock x).user) (hd : s.data = (p.sock x).data) :
    Keep p (p.set x s) := by
  intro y
  by_cases q : y = x
  · subst q
    rw [set_same]
    exact ⟨hk, hu, hd⟩
  · rw [set_ne _ _ q]
    exact ⟨rfl, rfl, rfl⟩

/-- The first part of `sock__delete`. -/
theorem delFirst_ok {p : Port} {x : Nat} (cancel : Nat → Bool) (h : Base p) (hx : x ∈ p.alive) (hd : (p.sock x).del = false) :
    ∃ p', delFirst p x cancel = some p' ∧ Base p' ∧ p'.tree = p.tree.filter (fun e => e.2 ≠ x) ∧ p'.io = p.io ∧ p'.alive = p.alive ∧
      p'.upd = p.upd.filter (fun y => y ≠ x) ∧ p'.dels = p.dels ∧ p'.waiting = p.waiting ∧ p'.g = p.g ∧ Keep p p' ∧
      (∀ y, y ≠ x → p'.sock y = p.sock y) ∧ (p'.sock x).del = true ∧ ((p'.sock x).status = .idle ↔ (p.sock x).status = .idle) ∧
      (p'.sock x).group = (p.sock x).group := by
  unfold delFirst
  dsimp only
  obtain ⟨s1, hs1, hkey, huser, hdata, hdel, hgrp, hst⟩ : ∃ s1, (if (p.sock x).status = .pending then
      p.set x (cancelled (p.sock x) (cancel (p.sock x).key)) else p) = p.set x s1 ∧ s1.key = (p.sock x).key ∧ s1.user = (p.sock x).user ∧
      s1.data = (p.sock x).data ∧ s1.del = (p.sock x).del ∧ s1.group = (p.sock x).group ∧ (s1.status = .idle ↔ (p.sock x).status = .idle) := by
    split
    · rename_i hp
      refine ⟨_, rfl, ?_⟩
      unfold cancelled
      split <;> simp [hp]
    · refine ⟨p.sock x, ?_, rfl, rfl, rfl, rfl, rfl, Iff.rfl⟩
      have : (fun z => if z = x then p.sock x else p.sock z) = p.sock := by
        funext z
        split
        · rename_i e; rw [e]
        · rfl
      unfold Port.set
      rw [this]
  rw [hs1, dequeue_eq]
  have b1 : Base (p.set x s1) := base_set' h hkey hdel hgrp
  have b2 := base_unq x b1
  have hxd : x ∉ p.dels := fun q => by
    have := (h.dm x q).2
    rw [hd] at this
    cases this
  have e0 : ((p.set x s1).unq x).sock = (p.set x s1).sock := rfl
  have hin : ((((p.set x s1).unq x).sock x).key, x) ∈ ((p.set x s1).unq x).tree := by
    rw [b2.tr]
    refine ⟨hx, ?_, rfl⟩
    rw [e0, set_same, hdel, hd]
  unfold Port.unregister
  rw [if_pos hin]
  dsimp only
  rw [e0, set_same]
  refine ⟨_, rfl, ?_, rfl, rfl, rfl, rfl, filter_self hxd, rfl, rfl, ?_, ?_, ?_, ?_, ?_⟩
  · -- the invariant
    have eg : ∀ r : Port, r.sock = (p.set x s1).sock → ∀ z, ((r.set x { s1 with del := true }).sock z).group = (p.sock z).group := by
      intro r hr z
      by_cases q : z = x
      · subst q; rw [set_same]; exact hgrp
      · rw [set_ne _ _ q, hr, set_ne _ _ q]
    have es : ∀ r : Port, r.sock = (p.set x s1).sock → ∀ z, z ≠ x → (r.set x { s1 with del := true }).sock z = p.sock z := by
      intro r hr z q
      rw [set_ne _ _ q, hr, set_ne _ _ q]
    refine ⟨h.an, ?_, ?_, h.un.filter _, ?_, h.dn.filter _, ?_, ?_⟩
    · exact h.tk.sublist (List.Sublist.map _ List.filter_sublist)
    · intro k z
      show (k, z) ∈ p.tree.filter (fun e => e.2 ≠ x) ↔ _
      rw [List.mem_filter]
      by_cases q : z = x
      · subst q
        rw [set_same]
        simp
      · rw [es _ ?_ z q, h.tr]
        · simp only [ne_eq, q, not_false_eq_true, decide_true, and_true]
          exact Iff.rfl
        · rfl
    · intro z hz
      have hz' := mem_out.1 hz
      rw [es _ ?_ z hz'.2]
      · exact h.um z hz'.1
      · rfl
    · intro z hz
      have hz' := mem_out.1 hz
      rw [es _ ?_ z hz'.2]
      · exact h.dm z hz'.1
      · rfl
    · have ht : ∀ r : Port, r.sock = (p.set x s1).sock → r.alive = p.alive → tokens (r.set x { s1 with del := true }) = tokens p := by
        intro r hr hra
        unfold tokens
        rw [show (r.set x { s1 with del := true }).alive = p.alive from hra]
        apply List.map_congr_left
        intro z _
        exact eg r hr z
      rw [ht _ ?_ ?_]
      · exact h.gi
      · rfl
      · rfl
  · intro y
    by_cases q : y = x
    · subst q; rw [set_same]; exact ⟨hkey, huser, hdata⟩
    · rw [set_ne _ _ q]
      show ((p.set x s1).sock y).key = _ ∧ ((p.set x s1).sock y).user = _ ∧ ((p.set x s1).sock y).data = _
      rw [set_ne _ _ q]
      exact ⟨rfl, rfl, rfl⟩
  · intro y q
    rw [set_ne _ _ q]
    show (p.set x s1).sock y = _
    rw [set_ne _ _ q]
  · rw [set_same]
  · rw [set_same]
    exact hst
  · rw [set_same]
    exact hgrp

/-- The second part. -/
theorem delLast_ok {p : Port} {x : Nat} (force : Bool) (h : Base p) (hx : x ∈ p.alive) (hd : (p.sock x).del = true) :
    ∃ p', delLast p x force = some p' ∧ Base p' ∧ p'.tree = p.tree ∧ p'.io = p.io ∧ p'.upd = p.upd ∧ p'.waiting = p.waiting ∧
      p'.sock = p.sock ∧ p'.g.q.length = p.g.q.length ∧
      (if force = true ∨ (p.sock x).status = .idle then
        p'.alive = p.alive.filter (fun y => y ≠ x) ∧ p'.dels = p.dels.filter (fun y => y ≠ x)
      else p'.alive = p.alive ∧ p'.dels = (if x ∈ p.dels then p.dels else p.dels ++ [x]) ∧ p'.g = p.g) := by
  have hxu : x ∉ p.upd := fun q => by
    have := (h.um x q).2
    rw [hd] at this
    cases this
  unfold delLast
  by_cases hc : force = true ∨ (p.sock x).status = .idle
  · rw [if_pos (by simpa using hc)]
    simp only [if_pos hc]
    unfold delFree
    dsimp only
    rw [dequeue_eq]
    obtain ⟨g', e, hg, hgl⟩ := gRelease_ok (g := (p.unq x).g) (n := ((p.unq x).sock x).group) h.gi (perm_out (fun z => (p.sock z).group) h.an hx)
    rw [e]
    dsimp only
    refine ⟨_, rfl, ?_, rfl, rfl, filter_self hxu, rfl, rfl, hgl, rfl, rfl⟩
    refine ⟨h.an.filter _, h.tk, ?_, h.un.filter _, ?_, h.dn.filter _, ?_, hg⟩
    · intro k z
      show (k, z) ∈ p.tree ↔ z ∈ p.alive.filter (fun y => y ≠ x) ∧ (p.sock z).del = false ∧ (p.sock z).key = k
      rw [h.tr, mem_out]
      constructor
      · rintro ⟨a, b, c⟩
        refine ⟨⟨a, ?_⟩, b, c⟩
        rintro rfl
        rw [hd] at b
        cases b
      · rintro ⟨⟨a, _⟩, b, c⟩
        exact ⟨a, b, c⟩
    · intro z hz
      have hz' := mem_out.1 hz
      exact ⟨mem_out.2 ⟨(h.um z hz'.1).1, hz'.2⟩, (h.um z hz'.1).2⟩
    · intro z hz
      have hz' := mem_out.1 hz
      exact ⟨mem_out.2 ⟨(h.dm z hz'.1).1, hz'.2⟩, (h.dm z hz'.1).2⟩
  · rw [if_neg (by simpa using hc)]
    simp only [if_neg hc]
    unfold Port.addDeleted Port.enq
    by_cases hxd : x ∈ p.dels
    · rw [if_pos (by simp [hxd])]
      simp only [if_pos hxd]
      exact ⟨p, rfl, h, rfl, rfl, rfl, rfl, rfl, rfl, rfl, rfl, rfl⟩
    · rw [if_neg (by simp [hxd, hxu])]
      simp only [if_neg hxd]
      refine ⟨_, rfl, ?_, rfl, rfl, rfl, rfl, rfl, rfl, rfl, rfl, rfl⟩
      refine ⟨h.an, h.tk, h.tr, h.un, h.um, ?_, ?_, h.gi⟩
      · show (p.dels ++ [x]).Nodup
        rw [List.nodup_append]
        refine ⟨h.dn, by simp, ?_⟩
        intro a ha b hb
        rw [List.mem_singleton] at hb
        subst hb
        exact fun e => hxd (e ▸ ha)
      · intro z hz
        have hz' : z ∈ p.dels ++ [x] := hz
        rw [List.mem_append, List.mem_singleton] at hz'
        rcases hz' with hz' | rfl
        · exact h.dm z hz'
        · exact ⟨hx, hd⟩

/-- `sock__delete`. -/
theorem sockDelete_ok {p : Port} {x : Nat} (force : Bool) (cancel : Nat → Bool) (h : Base p) (hx : x ∈ p.alive) :
    ∃ p', sockDelete p x force cancel = some p' ∧ Base p' ∧ p'.tree = p.tree.filter (fun e => e.2 ≠ x) ∧ p'.io = p.io ∧
      p'.upd = p.upd.filter (fun y => y ≠ x) ∧ p'.waiting = p.waiting ∧ Keep p p' ∧ (∀ y, y ≠ x → p'.sock y = p.sock y) ∧
      p'.g.q.length = p.g.q.length ∧
      (if force = true ∨ (p.sock x).status = .idle then
        p'.alive = p.alive.filter (fun y => y ≠ x) ∧ p'.dels = p.dels.filter (fun y => y ≠ x)
      else p'.alive = p.alive ∧ p'.dels = (if x ∈ p.dels then p.dels else p.dels ++ [x]) ∧ (p'.sock x).del = true ∧
        (p'.sock x).status ≠ .idle ∧ p'.g = p.g) := by
  unfold sockDelete
  rw [if_pos hx]
  cases hd : (p.sock x).del with
  | true =>
    rw [if_pos rfl]
    obtain ⟨p', e, h1, h2, h3, h4, h5, h6, hl, h7⟩ := delLast_ok force h hx hd
    have hxu : x ∉ p.upd := fun q => by
      have := (h.um x q).2
      rw [hd] at this
      cases this
    have hxt : p.tree.filter (fun e => e.2 ≠ x) = p.tree := by
      rw [List.filter_eq_self]
      intro a ha
      have : a.2 ≠ x := by
        intro q
        have := ((h.tr a.1 a.2).1 ha).2.1
        rw [q, hd] at this
        cases this
      simpa using this
    refine ⟨p', e, h1, by rw [h2, hxt], h3, by rw [h4, filter_self hxu], h5, ?_, ?_, hl, ?_⟩
    · intro y; rw [h6]; exact ⟨rfl, rfl, rfl⟩
    · intro y _; rw [h6]
    · split
      · rename_i hc; rw [if_pos hc] at h7; exact h7
      · rename_i hc
        rw [if_neg hc] at h7
        rw [not_or] at hc
        rw [h6]
        exact ⟨h7.1, h7.2.1, hd, hc.2, h7.2.2⟩
  | false =>
    simp only [Bool.false_eq_true, if_false]
    obtain ⟨p1, e1, b1, t1, i1, a1, u1, d1, w1, g1, k1, s1, del1, st1, _⟩ := delFirst_ok cancel h hx hd
    rw [e1]
    dsimp only
    obtain ⟨p', e, h1, h2, h3, h4, h5, h6, hl, h7⟩ := delLast_ok force b1 (by rw [a1]; exact hx) del1
    refine ⟨p', e, h1, by rw [h2, t1], by rw [h3, i1], by rw [h4, u1], by rw [h5, w1], ?_, ?_, by rw [hl, g1], ?_⟩
    · exact k1.trans (fun y => by rw [h6]; exact ⟨rfl, rfl, rfl⟩)
    · intro y hy; rw [h6, s1 y hy]
    · simp only [st1, a1, d1] at h7
      split
      · rename_i hc; rw [if_pos hc] at h7; exact h7
      · rename_i hc
        rw [if_neg hc] at h7
        rw [not_or] at hc
        rw [h6]
        exact ⟨h7.1, h7.2.1, del1, fun q => hc.2 (st1.1 q), by rw [h7.2.2, g1]⟩

/-- After a deletion that is not forced everything is in order. -/
theorem sockDelete_inv {p : Port} {x : Nat} (cancel : Nat → Bool) (h : Base p) (hio : Io p) (hcov : ∀ y, y ≠ x → Cov p y) (hx : x ∈ p.alive) :
    ∃ p', sockDelete p x false cancel = some p' ∧ Inv p' ∧ p'.tree = p.tree.filter (fun e => e.2 ≠ x) ∧ p'.io = p.io ∧
      p'.upd = p.upd.filter (fun y => y ≠ x) ∧ p'.waiting = p.waiting ∧ Keep p p' ∧ (∀ y, y ∈ p'.alive ↔ y ∈ p.alive ∧ (y = x → (p.sock x).status ≠ .idle)) ∧
      p'.g.q.length = p.g.q.length ∧ (∀ y, y ≠ x → p'.sock y = p.sock y) := by
  obtain ⟨p', e, b, t, i, u, w, k, s, hl, c⟩ := sockDelete_ok false cancel h hx
  simp only [Bool.false_eq_true, false_or] at c
  have hal : ∀ y, y ∈ p'.alive ↔ y ∈ p.alive ∧ (y = x → (p.sock x).status ≠ .idle) := by
    intro y
    split at c
    · rename_i hc
      rw [c.1, mem_out]
      simp [hc]
    · rename_i hc
      rw [c.1]
      simp [hc]
  refine ⟨p', e, ⟨b, ⟨by rw [i]; exact hio.nd, ?_⟩, ?_⟩, t, i, u, w, k, hal, hl, s⟩
  · intro y
    rw [i, hio.mem, hal]
    by_cases q : y = x
    · subst q
      split at c
      · rename_i hc
        simp [hc]
      · rename_i hc
        simp [hc, c.2.2.2.1]
    · rw [s y q]
      simp [q]
  · intro y hy
    rw [hal] at hy
    by_cases q : y = x
    · subst q
      rw [if_neg (hy.2 rfl)] at c
      refine ⟨fun _ => ⟨?_, c.2.2.2.1⟩, fun q => ?_⟩
      · rw [c.2.1]
        split
        · assumption
        · simp
      · rw [c.2.2.1] at q; cases q
    · rw [s y q]
      have := hcov y q hy.1
      refine ⟨fun hd => ⟨?_, (this.1 hd).2⟩, fun hd => ?_⟩
      · have hm := (this.1 hd).1
        split at c
        · rw [c.2, mem_out]; exact ⟨hm, q⟩
        · rw [c.2.1]
          split
          · exact hm
          · simp [hm]
      · rw [u, mem_out]
        rcases this.2 hd with a | a
        · exact Or.inl ⟨a, q⟩
        · exact Or.inr a

/-- What an updating can change: registrations of closed sockets go. -/
structure Eff (p p' : Port) (o : Orc) : Prop where
  keep : Keep p p'
  sub : ∀ e ∈ p'.tree, e ∈ p.tree
  gone : ∀ e ∈ p.tree, e ∉ p'.tree → o.poll e.1 = .closed
  waiting : p'.waiting = p.waiting
  io : ∀ x ∈ p.io, x ∈ p'.io
  al : ∀ x ∈ p'.alive, x ∈ p.alive
  len : p'.g.q.length = p.g.q.length

theorem Eff.refl (p : Port) (o : Orc) : Eff p p o := ⟨Keep.refl p, fun _ h => h, fun _ h h' => absurd h h', rfl, fun _ h => h, fun _ h => h, rfl⟩

theorem Eff.trans {p p' p'' : Port} {o : Orc} (h : Eff p p' o) (h' : Eff p' p'' o) : Eff p p'' o := by
  refine ⟨h.keep.trans h'.keep, fun e he => h.sub e (h'.sub e he), ?_, h'.waiting.trans h.waiting,
    fun x hx => h'.io x (h.io x hx), fun x hx => h.al x (h'.al x hx), h'.len.trans h.len⟩
  intro e he hn
  by_cases q : e ∈ p'.tree
  · exact h'.gone e q hn
  · exact h.gone e he q

theorem cov_unq {p : Port} {x y : Nat} (h : Cov p y) (hy : y ≠ x) : Cov (p.unq x) y := by
  intro ha
  refine ⟨fun hd => ⟨mem_out.2 ⟨((h ha).1 hd).1, hy⟩, ((h ha).1 hd).2⟩, fun hd => ?_⟩
  rcases (h ha).2 hd with q | q
  · exact Or.inl (mem_out.2 ⟨q, hy⟩)
  · exact Or.inr q

theorem cov_set {p : Port} {x y : Nat} {s : Sock} (io' : List Nat) (h : Cov p y) (hy : y ≠ x) : Cov ({ p with io := io' }.set x s) y := by
  intro ha
  rw [set_ne _ _ hy]
  exact h ha

theorem updateDone {p : Port} {x : Nat} {o : Orc} (h : Inv p) (hx : x ∈ p.alive) (hd : (p.sock x).del = false)
    (hs : (p.sock x).status = .cancelled ∨ ((p.sock x).status = .pending ∧ covered (p.sock x) = true)) :
    Inv (p.dequeue x) ∧ Eff p (p.dequeue x) o ∧ (p.dequeue x).upd = p.upd.filter (fun y => y ≠ x) := by
  rw [dequeue_eq]
  refine ⟨⟨base_unq x h.base, ⟨h.io.nd, h.io.mem⟩, ?_⟩, ⟨Keep.refl p, fun _ h => h, fun _ h h' => absurd h h', rfl, fun _ h => h, fun _ h => h, rfl⟩, rfl⟩
  intro y
  by_cases q : y = x
  · subst q
    intro _
    refine ⟨fun hd' => ?_, fun _ => Or.inr hs⟩
    rw [show ((p.unq y).sock y).del = (p.sock y).del from rfl, hd] at hd'
    cases hd'
  · exact cov_unq (h.cov y) q

theorem covered_user (s : Sock) : covered { s with status := .pending, pend := s.user } = true := by
  unfold covered
  simp only [beq_iff_eq]
  apply BitVec.eq_of_getLsbD_eq
  intro i hi
  simp only [BitVec.getLsbD_and, BitVec.getLsbD_not, hi, decide_true, Bool.true_and]
  cases s.user.getLsbD i <;> simp

theorem sockUpdate_ok {p : Port} {x : Nat} {o : Orc} (h : Inv p) (hx : x ∈ p.upd) :
    ∃ p' b, sockUpdate p x o = some (p', b) ∧ Inv p' ∧ Eff p p' o ∧
      (if b then p'.upd = p.upd.filter (fun y => y ≠ x) else p' = p ∧ (o.poll (p.sock x).key = .failed ∨ o.cancel (p.sock x).key = false)) := by
  obtain ⟨ha, hd⟩ := h.base.um x hx
  unfold sockUpdate
  rw [if_pos ha]
  dsimp only
  rw [if_neg (show ¬ (p.sock x).del = true by rw [hd]; simp)]
  cases hs : (p.sock x).status with
  | cancelled =>
    dsimp only
    obtain ⟨a, b, c⟩ := updateDone (o := o) h ha hd (Or.inl hs)
    exact ⟨_, true, rfl, a, b, c⟩
  | pending =>
    dsimp only
    split
    · rename_i hc
      obtain ⟨a, b, c⟩ := updateDone (o := o) h ha hd (Or.inr ⟨hs, hc⟩)
      exact ⟨_, true, rfl, a, b, c⟩
    · cases hcan : o.cancel (p.sock x).key with
      | false => exact ⟨p, false, rfl, h, Eff.refl p o, rfl, Or.inr rfl⟩
      | true =>
        rw [if_pos rfl]
        have hi : Inv (p.set x (cancelled (p.sock x) true)) := by
          refine ⟨base_set' h.base rfl rfl rfl, ⟨h.io.nd, ?_⟩, ?_⟩
          · intro y
            by_cases q : y = x
            · subst q
              rw [set_same]
              have := h.io.mem y
              rw [hs] at this
              exact ⟨fun q => ⟨(this.1 q).1, by simp [cancelled]⟩, fun q => this.2 ⟨q.1, by simp⟩⟩
            · rw [set_ne _ _ q]
              exact h.io.mem y
          · intro y
            by_cases q : y = x
            · subst q
              intro _
              rw [set_same]
              refine ⟨fun hd' => ?_, fun _ => Or.inl hx⟩
              rw [show (cancelled (p.sock y) true).del = (p.sock y).del from rfl, hd] at hd'
              cases hd'
            · exact cov_set p.io (h.cov y) q
        obtain ⟨a, b, c⟩ := updateDone (o := o) hi ha (by rw [set_same]; exact hd) (Or.inl (by rw [set_same]; rfl))
        refine ⟨_, true, rfl, a, ?_, c⟩
        refine ⟨(keep_set (x := x) (s := cancelled (p.sock x) true) rfl rfl rfl).trans b.keep, b.sub, b.gone, b.waiting, b.io, b.al, b.len⟩
  | idle =>
    dsimp only
    cases hp : o.poll (p.sock x).key with
    | failed => exact ⟨p, false, rfl, h, Eff.refl p o, rfl, Or.inl rfl⟩
    | closed =>
      dsimp only
      obtain ⟨p', e, i, t, io, u, w, k, hal, hl, _⟩ := sockDelete_inv o.cancel h.base h.io (fun y _ => h.cov y) ha
      rw [e]
      refine ⟨p', true, rfl, i, ⟨k, ?_, ?_, w, ?_, fun y hy => ((hal y).1 hy).1, hl⟩, u⟩
      · intro e he
        rw [t] at he
        exact (List.mem_filter.1 he).1
      · intro e he hn
        rw [t, List.mem_filter] at hn
        have : e.2 = x := by
          by_contra q
          exact hn ⟨he, by simpa using q⟩
        have hk := ((h.base.tr e.1 e.2).1 he).2.2
        rw [this] at hk
        rw [← hk]
        exact hp
      · rw [io]; exact fun _ q => q
    | started =>
      dsimp only
      have hxio : x ∉ p.io := by
        rw [h.io.mem, hs]
        simp
      have hi : Inv ({ p with io := x :: p.io }.set x { p.sock x with status := .pending, pend := (p.sock x).user }) := by
        refine ⟨base_set _ h.base rfl rfl rfl, ⟨List.nodup_cons.2 ⟨hxio, h.io.nd⟩, ?_⟩, ?_⟩
        · intro y
          show y ∈ x :: p.io ↔ _
          by_cases q : y = x
          · subst q
            rw [set_same]
            simp only [List.mem_cons, true_or, ne_eq, reduceCtorEq, not_false_eq_true, and_true, true_iff]
            exact ha
          · rw [set_ne _ _ q, List.mem_cons, h.io.mem]
            simp only [q, false_or]
            exact Iff.rfl
        · intro y
          by_cases q : y = x
          · subst q
            intro _
            rw [set_same]
            refine ⟨fun hd' => ?_, fun _ => Or.inl hx⟩
            rw [show ({ p.sock y with status := Status.pending, pend := (p.sock y).user } : Sock).del = (p.sock y).del from rfl, hd] at hd'
            cases hd'
          · exact cov_set _ (h.cov y) q
      obtain ⟨a, b, c⟩ := updateDone (o := o) hi ha (by rw [set_same]; exact hd)
        (Or.inr ⟨by rw [set_same], by rw [set_same]; exact covered_user _⟩)
      refine ⟨_, true, rfl, a, ?_, c⟩
      have kk : Keep p ({ p with io := x :: p.io }.set x { p.sock x with status := .pending, pend := (p.sock x).user }) :=
        keep_set (p := { p with io := x :: p.io }) rfl rfl rfl
      refine ⟨kk.trans b.keep, b.sub, b.gone, b.waiting, ?_, b.al, b.len⟩
      intro y hy
      exact b.io y (List.mem_cons_of_mem x hy)

theorem updateEvents_ok : ∀ (fuel : Nat) {p : Port} {o : Orc}, Inv p → p.upd.length < fuel →
    ∃ p' b, updateEvents fuel p o = some (p', b) ∧ Inv p' ∧ Eff p p' o ∧ (if b then p'.upd = [] else ∃ k, o.poll k = .failed ∨ o.cancel k = false) := by
  intro fuel
  induction fuel with
  | zero => intro _ _ _ h; omega
  | succ n ih =>
    intro p o h hlt
    unfold updateEvents
    cases hu : p.upd with
    | nil => exact ⟨p, true, rfl, h, Eff.refl p o, hu⟩
    | cons x l =>
      dsimp only
      obtain ⟨p1, b, e, i, ef, c⟩ := sockUpdate_ok (o := o) h (x := x) (by rw [hu]; simp)
      rw [e]
      cases b with
      | false =>
        simp only [Bool.false_eq_true, if_false] at c
        exact ⟨p1, false, rfl, i, ef, ⟨_, c.2⟩⟩
      | true =>
        simp only [if_true] at c
        dsimp only
        have hlen : p1.upd.length < n := by
          rw [c, hu, List.filter_cons]
          simp only [ne_eq, not_true_eq_false, decide_false, Bool.false_eq_true, if_false]
          have := List.length_filter_le (fun y => decide ¬ y = x) l
          rw [hu, List.length_cons] at hlt
          omega
        obtain ⟨p2, b2, e2, i2, ef2, c2⟩ := ih (o := o) i hlen
        exact ⟨p2, b2, e2, i2, ef.trans ef2, c2⟩

theorem updateIfPolling_ok {p : Port} {o : Orc} (h : Inv p) :
    ∃ p', updateIfPolling p o = some p' ∧ Inv p' ∧ Eff p p' o ∧
      (0 < p.waiting → p'.upd = [] ∨ ∃ k, o.poll k = .failed ∨ o.cancel k = false) := by
  unfold updateIfPolling
  split
  · obtain ⟨p', b, e, i, ef, c⟩ := updateEvents_ok (p.upd.length + 1) (o := o) h (Nat.lt_succ_self _)
    rw [e]
    refine ⟨p', rfl, i, ef, fun _ => ?_⟩
    cases b
    · exact Or.inr (by simpa using c)
    · exact Or.inl (by simpa using c)
  · exact ⟨p, rfl, h, Eff.refl p o, fun q => absurd q ‹_›⟩

end Verif.Wepoll.Ep
