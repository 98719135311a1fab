import Verif.Udp.Model

/-!
# What the users of a UDP socket are told, where their replies go, and when packets end (C95-C98)
-/

namespace Verif.Udp

/-- A socket as `udp_bind` or `udp_connect` leave it. -/
def Fresh (s : St) : Prop := (∃ own flags, s = bound own flags) ∨ ∃ peer, s = connected peer

/-- The datagrams that arrive in an execution. -/
def arrivals : List Op → List (Addr × Bytes)
  | [] => []
  | .arrive a d :: l => (a, d) :: arrivals l
  | _ :: l => arrivals l

/-- The packets among the results. -/
def packets : List Ret → List Nat
  | [] => []
  | .packet p :: l => p :: packets l
  | _ :: l => packets l

/-- What is handed over of a sequence of datagrams: the empty ones are dropped, the others cut to 48 KB. -/
def handed (l : List (Addr × Bytes)) : List Bytes := (l.filter fun x => x.2 ≠ []).map fun x => x.2.take 49152

/-- What a user sees of a packet: `udp_length`, this many bytes at `udp_message`, and the byte after them. -/
def seen (s : St) (p : Nat) : Nat × Bytes × Option UInt8 :=
  ((s.pk p).nread, (s.pk p).message.take (s.pk p).nread, (s.pk p).message[(s.pk p).nread]?)

/-! ## Lemmas -/

theorem take_pos {d : Bytes} : (d.take recvMax).length > 0 ↔ d ≠ [] := by
  cases d with
  | nil => simp
  | cons x l => simp [recvMax]

theorem newPacket_eq (a : Addr) (flags : Nat) (d : Bytes) :
    newPacket a flags d = .ok ⟨true, true, .own a, d ++ List.replicate (alignUp2 (d.length + 1) - d.length) 0, d.length, true,
      flags, none, []⟩ := by
  have h : d.length ≤ alignUp2 (d.length + 1) := by unfold alignUp2; omega
  unfold newPacket memcpy
  simp [calloc, h]

@[simp] theorem setPk_n (s : St) (i : Nat) (p : Packet) : (s.setPk i p).n = s.n := rfl
@[simp] theorem setPk_inq (s : St) (i : Nat) (p : Packet) : (s.setPk i p).inq = s.inq := rfl
@[simp] theorem setPk_out (s : St) (i : Nat) (p : Packet) : (s.setPk i p).out = s.out := rfl
@[simp] theorem setPk_sockaddr (s : St) (i : Nat) (p : Packet) : (s.setPk i p).sockaddr = s.sockaddr := rfl
@[simp] theorem setPk_target (s : St) (i : Nat) (p : Packet) : (s.setPk i p).target = s.target := rfl
@[simp] theorem setPk_wait (s : St) (i : Nat) (p : Packet) : (s.setPk i p).wait = s.wait := rfl
@[simp] theorem setPk_done (s : St) (i : Nat) (p : Packet) : (s.setPk i p).done = s.done := rfl
@[simp] theorem setPk_same (s : St) (i : Nat) (p : Packet) : (s.setPk i p).pk i = p := by simp [St.setPk]
theorem setPk_other (s : St) (i j : Nat) (p : Packet) (h : j ≠ i) : (s.setPk i p).pk j = s.pk j := by simp [St.setPk, h]

/-- The packets hold what was handed over. -/
def Holds (s : St) (l : List Bytes) : Prop :=
  s.n = l.length + 1 ∧ s.target < s.n ∧ ∀ i (h : i < l.length),
    (s.pk (i + 1)).nread = l[i].length ∧ ∃ k, (s.pk (i + 1)).message = l[i] ++ List.replicate (k + 1) 0

theorem Holds.of_same {s s' : St} {l : List Bytes} (h : Holds s l) (hn : s'.n = s.n) (ht : s'.target = s.target)
    (hp : ∀ i, (s'.pk i).nread = (s.pk i).nread ∧ (s'.pk i).message = (s.pk i).message) : Holds s' l := by
  refine ⟨by rw [hn]; exact h.1, by rw [hn, ht]; exact h.2.1, fun i hi => ?_⟩
  rw [(hp _).1, (hp _).2]
  exact h.2.2 i hi

theorem setPk_keep (s : St) (i : Nat) (p : Packet) (h1 : p.nread = (s.pk i).nread) (h2 : p.message = (s.pk i).message) (j : Nat) :
    ((s.setPk i p).pk j).nread = (s.pk j).nread ∧ ((s.setPk i p).pk j).message = (s.pk j).message := by
  by_cases h : j = i
  · subst h; simp [h1, h2]
  · rw [setPk_other _ _ _ _ h]; exact ⟨rfl, rfl⟩

/-- What one operation consumes and returns. -/
def StepFact (s s' : St) (o : Op) (r : Ret) (l : List Bytes) : Prop :=
  ∃ c, Holds s' (l ++ handed c) ∧ s.inq ++ arrivals [o] = c ++ s'.inq ∧ packets [r] = List.range' s.n (s'.n - s.n) ∧ s.n ≤ s'.n

theorem StepFact.none {s s' : St} {o : Op} {r : Ret} {l : List Bytes} (h : Holds s l) (hn : s'.n = s.n)
    (ht : s'.target = s.target) (hp : ∀ i, (s'.pk i).nread = (s.pk i).nread ∧ (s'.pk i).message = (s.pk i).message)
    (hi : s.inq ++ arrivals [o] = s'.inq) (hr : packets [r] = []) : StepFact s s' o r l :=
  ⟨[], by simpa [handed] using h.of_same hn ht hp, by simpa using hi, by rw [hn, hr]; simp, by omega⟩

theorem attempt_fact {s s' : St} {p : Nat} {o : Op} {r : Ret} {l : List Bytes} (h : Holds s l) (ho : arrivals [o] = [])
    (e : attempt s p = .ok (s', r)) : StepFact s s' o r l := by
  unfold attempt at e
  split at e
  · cases hq : s.inq with
    | nil =>
      rw [hq] at e
      simp only [Res.ok.injEq, Prod.mk.injEq] at e
      obtain ⟨e, e'⟩ := e
      subst e e'
      exact StepFact.none h rfl rfl (fun i => ⟨rfl, rfl⟩) (by simp [ho, hq]) rfl
    | cons x rest =>
      obtain ⟨a, d⟩ := x
      rw [hq] at e
      dsimp only at e
      by_cases hd : d = []
      · rw [if_neg (by rw [take_pos]; simp [hd])] at e
        simp only [Res.ok.injEq, Prod.mk.injEq] at e
        obtain ⟨e, e'⟩ := e
        subst e e'
        refine ⟨[(a, d)], ?_, by simp [ho, hq], by simp [packets], Nat.le_refl _⟩
        have : handed [(a, d)] = [] := by simp [handed, hd]
        rw [this, List.append_nil]
        exact h.of_same rfl rfl fun i => ⟨rfl, rfl⟩
      · rw [if_pos (by rw [take_pos]; exact hd), newPacket_eq] at e
        simp only [Res.ok_bind, Res.ok.injEq, Prod.mk.injEq] at e
        obtain ⟨e, e'⟩ := e
        subst e e'
        refine ⟨[(a, d)], ?_, by simp [ho, hq], by simp [packets], Nat.le_succ _⟩
        have hh : handed [(a, d)] = [d.take recvMax] := by simp [handed, hd, recvMax]
        rw [hh]
        refine ⟨by simp [h.1], by simp, fun i hi => ?_⟩
        simp only [List.length_append, List.length_singleton] at hi
        have hn := h.1
        by_cases hi' : i < l.length
        · have e1 : ((St.setPk { s with sockaddr := a, inq := rest, wait := none } s.n
              ⟨true, true, .own a, d.take recvMax ++ List.replicate (alignUp2 ((d.take recvMax).length + 1) -
                (d.take recvMax).length) 0, (d.take recvMax).length, true, (s.pk p).flags, none, []⟩).pk (i + 1)) = s.pk (i + 1) :=
            setPk_other _ _ _ _ (by omega)
          dsimp only at e1 ⊢
          rw [e1, List.getElem_append_left hi']
          exact h.2.2 i hi'
        · have hi2 : i = l.length := by omega
          subst hi2
          have e1 : l.length + 1 = s.n := hn.symm
          simp only [e1, setPk_same]
          rw [List.getElem_append_right (by omega)]
          simp only [Nat.sub_self, List.getElem_singleton]
          refine ⟨trivial, alignUp2 ((d.take recvMax).length + 1) - (d.take recvMax).length - 1, ?_⟩
          congr 2
          have := le_alignUp2 ((d.take recvMax).length + 1)
          omega
  · cases e

theorem kernel_fact {s s' : St} {a : Addr} {n : Nat} {d : Bytes} {o : Op} {r : Ret} {l : List Bytes} (h : Holds s l)
    (ho : arrivals [o] = []) (e : sendtoKernel s a n d = (s', r)) : StepFact s s' o r l := by
  unfold sendtoKernel at e
  by_cases hc : n < (if a.v6 then 24 else 16)
  · rw [if_pos hc] at e
    simp only [Prod.mk.injEq] at e
    obtain ⟨e, e'⟩ := e; subst e e'
    exact StepFact.none h rfl rfl (fun i => ⟨rfl, rfl⟩) (by simp [ho]) rfl
  · rw [if_neg hc] at e
    simp only [Prod.mk.injEq] at e
    obtain ⟨e, e'⟩ := e; subst e e'
    exact StepFact.none h rfl rfl (fun i => ⟨rfl, rfl⟩) (by simp [ho]) rfl

theorem step_fact {s s' : St} {o : Op} {r : Ret} {l : List Bytes} (h : Holds s l) (e : step s o = .ok (s', r)) :
    StepFact s s' o r l := by
  cases o with
  | arrive a d =>
    simp only [step, Res.ok.injEq, Prod.mk.injEq] at e
    obtain ⟨e, e'⟩ := e; subst e e'
    exact StepFact.none h rfl rfl (fun i => ⟨rfl, rfl⟩) rfl rfl
  | recv =>
    simp only [step] at e
    split at e
    · simp only [Res.ok.injEq, Prod.mk.injEq] at e
      obtain ⟨e, e'⟩ := e; subst e e'
      exact StepFact.none h rfl rfl (fun i => ⟨rfl, rfl⟩) (by simp [arrivals]) rfl
    · split at e
      · have h' : Holds (s.setPk s.target { s.pk s.target with addr := .sock }) l :=
          h.of_same rfl rfl (setPk_keep _ _ _ rfl rfl)
        have := attempt_fact (o := .recv) h' rfl e
        exact this
      · cases e
  | wake =>
    simp only [step] at e
    split at e
    · exact attempt_fact h rfl e
    · simp only [Res.ok.injEq, Prod.mk.injEq] at e
      obtain ⟨e, e'⟩ := e; subst e e'
      exact StepFact.none h rfl rfl (fun i => ⟨rfl, rfl⟩) (by simp [arrivals]) rfl
  | fail =>
    simp only [step] at e
    split at e <;>
    · simp only [Res.ok.injEq, Prod.mk.injEq] at e
      obtain ⟨e, e'⟩ := e; subst e e'
      exact StepFact.none h rfl rfl (fun i => ⟨rfl, rfl⟩) (by simp [arrivals]) rfl
  | handle p =>
    simp only [step, Res.ok.injEq, Prod.mk.injEq] at e
    obtain ⟨e, e'⟩ := e; subst e e'
    exact StepFact.none h rfl rfl (setPk_keep _ _ _ rfl rfl) (by simp [arrivals]) rfl
  | message p =>
    simp only [step] at e
    split at e
    · split at e
      · simp only [Res.ok.injEq, Prod.mk.injEq] at e
        obtain ⟨e, e'⟩ := e; subst e e'
        exact StepFact.none h rfl rfl (setPk_keep _ _ _ rfl rfl) (by simp [arrivals]) rfl
      · simp only [Res.ok.injEq, Prod.mk.injEq] at e
        obtain ⟨e, e'⟩ := e; subst e e'
        exact StepFact.none h rfl rfl (fun i => ⟨rfl, rfl⟩) (by simp [arrivals]) rfl
    · cases e
  | ip p =>
    simp only [step] at e
    split at e
    · split at e
      · simp only [Res.ok.injEq, Prod.mk.injEq] at e
        obtain ⟨e, e'⟩ := e; subst e e'
        exact StepFact.none h rfl rfl (fun i => ⟨rfl, rfl⟩) (by simp [arrivals]) rfl
      · obtain ⟨a, _, e⟩ := Res.bind_eq_ok.1 e
        simp only [Res.ok.injEq, Prod.mk.injEq] at e
        obtain ⟨e, e'⟩ := e; subst e e'
        exact StepFact.none h rfl rfl (setPk_keep _ _ _ rfl rfl) (by simp [arrivals]) rfl
    · cases e
  | length p =>
    simp only [step] at e
    split at e
    · simp only [Res.ok.injEq, Prod.mk.injEq] at e
      obtain ⟨e, e'⟩ := e; subst e e'
      exact StepFact.none h rfl rfl (fun i => ⟨rfl, rfl⟩) (by simp [arrivals]) rfl
    · cases e
  | send p d =>
    simp only [step] at e
    split at e
    · exact kernel_fact h rfl (Res.ok.inj e)
    · cases e
  | finish p ptr pre =>
    simp only [step] at e
    split at e
    · cases e
    · obtain ⟨x, _, e⟩ := Res.bind_eq_ok.1 e
      simp only [Res.ok.injEq, Prod.mk.injEq] at e
      obtain ⟨e, e'⟩ := e; subst e e'
      exact StepFact.none h rfl rfl (setPk_keep _ _ _ rfl rfl) (by simp [arrivals]) rfl
  | dest a flags =>
    simp only [step] at e
    split at e
    · simp only [Res.ok.injEq, Prod.mk.injEq] at e
      obtain ⟨e, e'⟩ := e; subst e e'
      exact StepFact.none h rfl rfl (setPk_keep _ _ _ rfl rfl) (by simp [arrivals]) rfl
    · cases e
  | sendto d =>
    simp only [step] at e
    split at e
    · obtain ⟨x, _, e⟩ := Res.bind_eq_ok.1 e
      split at e
      · exact kernel_fact h rfl (Res.ok.inj e)
      · split at e <;>
        · simp only [Res.ok.injEq, Prod.mk.injEq] at e
          obtain ⟨e, e'⟩ := e; subst e e'
          exact StepFact.none h rfl rfl (fun i => ⟨rfl, rfl⟩) (by simp [arrivals]) rfl
    · cases e

theorem arrivals_cons (o : Op) (l : List Op) : arrivals (o :: l) = arrivals [o] ++ arrivals l := by
  cases o <;> rfl

theorem packets_cons (r : Ret) (l : List Ret) : packets (r :: l) = packets [r] ++ packets l := by
  cases r <;> rfl

theorem handed_append (a b : List (Addr × Bytes)) : handed (a ++ b) = handed a ++ handed b := by
  simp [handed]

theorem run_fact {s s' : St} {ops : List Op} {rs : List Ret} {l : List Bytes} (h : Holds s l)
    (e : run s ops = .ok (s', rs)) :
    ∃ c, Holds s' (l ++ handed c) ∧ s.inq ++ arrivals ops = c ++ s'.inq ∧ packets rs = List.range' s.n (s'.n - s.n) ∧
      s.n ≤ s'.n := by
  induction ops generalizing s l rs with
  | nil =>
    simp only [run, Res.ok.injEq, Prod.mk.injEq] at e
    obtain ⟨e, e'⟩ := e; subst e e'
    exact ⟨[], by simpa [handed] using h, by simp [arrivals], by simp [packets], Nat.le_refl _⟩
  | cons o ops ih =>
    rw [run] at e
    obtain ⟨⟨s1, r⟩, e1, e⟩ := Res.bind_eq_ok.1 e
    obtain ⟨⟨s2, rs'⟩, e2, e⟩ := Res.bind_eq_ok.1 e
    simp only [Res.ok.injEq, Prod.mk.injEq] at e
    obtain ⟨e, e'⟩ := e; subst e e'
    obtain ⟨c1, h1, i1, p1, n1⟩ := step_fact h e1
    obtain ⟨c2, h2, i2, p2, n2⟩ := ih h1 e2
    refine ⟨c1 ++ c2, by rw [handed_append, ← List.append_assoc]; exact h2, ?_, ?_, Nat.le_trans n1 n2⟩
    · rw [arrivals_cons, ← List.append_assoc, i1, List.append_assoc, i2, List.append_assoc]
    · rw [packets_cons, p1, p2]
      have : s2.n - s.n = (s1.n - s.n) + (s2.n - s1.n) := by omega
      rw [this, ← List.range'_append_1]
      congr 2
      omega

theorem fresh_holds {s : St} (h : Fresh s) : Holds s [] ∧ s.inq = [] ∧ s.n = 1 := by
  rcases h with ⟨own, flags, rfl⟩ | ⟨peer, rfl⟩
  · exact ⟨⟨rfl, Nat.zero_lt_one, fun i hi => absurd hi (by simp)⟩, rfl, rfl⟩
  · exact ⟨⟨rfl, Nat.zero_lt_one, fun i hi => absurd hi (by simp)⟩, rfl, rfl⟩

theorem Holds.seen {s : St} {l : List Bytes} (h : Holds s l) :
    (List.range' 1 (s.n - 1)).map (seen s) = l.map fun d => (d.length, d, some 0) := by
  apply List.ext_getElem
  · simp [h.1]
  · intro i h1 h2
    simp only [List.length_map] at h2
    obtain ⟨e1, k, e2⟩ := h.2.2 i h2
    simp only [List.getElem_map, List.getElem_range', Nat.one_mul, Udp.seen, Nat.add_comm 1 i, e1, e2]
    simp

/-- The state after a datagram was received: packet number `n` is new. -/
def afterRecv (s : St) (p : Nat) (a : Addr) (d : Bytes) (rest : List (Addr × Bytes)) : St :=
  { St.setPk { s with sockaddr := a, inq := rest, wait := none } s.n
      ⟨true, true, .own a, d.take recvMax ++ List.replicate (alignUp2 ((d.take recvMax).length + 1) - (d.take recvMax).length) 0,
        (d.take recvMax).length, true, (s.pk p).flags, none, []⟩ with n := s.n + 1, target := s.n }

theorem attempt_eq (s : St) (p : Nat) (a : Addr) (d : Bytes) (rest : List (Addr × Bytes)) (hl : (s.pk p).live = true)
    (hq : s.inq = (a, d) :: rest) (hd : d ≠ []) : attempt s p = .ok (afterRecv s p a d rest, .packet s.n) := by
  unfold attempt
  rw [if_pos hl, hq]
  dsimp only
  rw [if_pos (take_pos.2 hd), newPacket_eq]
  rfl

theorem step_recv (s : St) (a : Addr) (d : Bytes) (rest : List (Addr × Bytes)) (hw : s.wait = none)
    (hl : (s.pk s.target).live = true) (hq : s.inq = (a, d) :: rest) (hd : d ≠ []) :
    step s .recv = .ok (afterRecv (s.setPk s.target { s.pk s.target with addr := .sock }) s.target a d rest, .packet s.n) := by
  simp only [step, hw, hl, if_true, ne_eq, not_true_eq_false, if_false]
  exact attempt_eq _ _ a d rest (by simp) (by simp [hq]) hd

theorem run_cons {s s1 s2 : St} {o : Op} {r : Ret} {l : List Op} {rs : List Ret} (h : step s o = .ok (s1, r))
    (h' : run s1 l = .ok (s2, rs)) : run s (o :: l) = .ok (s2, r :: rs) := by
  rw [run, h, Res.ok_bind]
  dsimp only
  rw [h', Res.ok_bind]

theorem run_cons_ub {s s1 : St} {o : Op} {r : Ret} {l : List Op} (h : step s o = .ok (s1, r)) (h' : run s1 l = .ub) :
    run s (o :: l) = .ub := by
  rw [run, h, Res.ok_bind]
  dsimp only
  rw [h', Res.ub_bind]

theorem run_ub {s : St} {o : Op} {l : List Op} (h : step s o = .ub) : run s (o :: l) = .ub := by
  rw [run, h, Res.ub_bind]

/-- The first datagram at a bound socket. -/
def first (own : Addr) (flags : Nat) (a : Addr) (d : Bytes) (rest : List (Addr × Bytes)) : St :=
  afterRecv (St.setPk { bound own flags with inq := (a, d) :: rest } 0 { packet0 flags with addr := .sock }) 0 a d rest

theorem step_first (own : Addr) (flags : Nat) (a : Addr) (d : Bytes) (rest : List (Addr × Bytes)) (hd : d ≠ []) :
    step { bound own flags with inq := (a, d) :: rest } .recv = .ok (first own flags a d rest, .packet 1) :=
  step_recv { bound own flags with inq := (a, d) :: rest } a d rest rfl rfl rfl hd

/-! ## Claims -/

/-- C95, what happens: the packets that `udp_recv` returns hold, in order, the datagrams taken from the socket, each once,
without the empty ones and cut to 49152 bytes; the length is right, and a zero byte follows the text.  Later operations do
not change what a packet holds. -/
theorem udp_received_exact {s0 s : St} {ops : List Op} {rs : List Ret} (h : Fresh s0) (e : run s0 ops = .ok (s, rs)) :
    ∃ taken, arrivals ops = taken ++ s.inq ∧
      (packets rs).map (seen s) =
        ((taken.filter fun x => x.2 ≠ []).map fun x => x.2.take 49152).map fun d => (d.length, d, some 0) := by
  obtain ⟨h0, hq, hn⟩ := fresh_holds h
  obtain ⟨c, hc, hi, hp, _⟩ := run_fact h0 e
  refine ⟨c, by simpa [hq] using hi, ?_⟩
  rw [hp, hn]
  have := hc.seen
  simpa [handed] using this

/-- C95: if all datagrams have between 1 and 49152 bytes, then `udp_recv` returns exactly them, in the order of arrival, each
whole and once. -/
theorem udp_received_whole_partial {s0 s : St} {ops : List Op} {rs : List Ret} (h : Fresh s0)
    (e : run s0 ops = .ok (s, rs)) (hd : ∀ x ∈ arrivals ops, x.2 ≠ [] ∧ x.2.length ≤ 49152) :
    ∃ taken, arrivals ops = taken ++ s.inq ∧
      (packets rs).map (seen s) = taken.map fun x => (x.2.length, x.2, some 0) := by
  obtain ⟨t, h1, h2⟩ := udp_received_exact h e
  refine ⟨t, h1, ?_⟩
  rw [h2]
  have ht : ∀ x ∈ t, x.2 ≠ [] ∧ x.2.length ≤ 49152 := fun x hx => hd x (by rw [h1]; simp [hx])
  have hf : (t.filter fun x => x.2 ≠ []) = t := List.filter_eq_self.2 fun x hx => by simp [(ht x hx).1]
  rw [hf, List.map_map]
  apply List.map_congr_left
  intro x hx
  simp [List.take_of_length_le (ht x hx).2]

/-- C95 is false: an empty datagram makes `udp_recv` report a failure, and is gone. -/
theorem udp_empty_is_failure (own a : Addr) (flags : Nat) :
    ∃ s, run (bound own flags) [.arrive a [], .recv] = .ok (s, [.unit, .null]) ∧ s.inq = [] := by
  refine ⟨_, rfl, rfl⟩

/-- C95 is false: of a datagram of more than 49152 bytes the rest is dropped, and the length is that of the part. -/
theorem udp_long_is_cut (own a : Addr) (flags : Nat) (d : Bytes) (h : 49152 < d.length) :
    ∃ s, run (bound own flags) [.arrive a d, .recv] = .ok (s, [.unit, .packet 1]) ∧ s.inq = [] ∧
      seen s 1 = (49152, d.take 49152, some 0) := by
  have hd : d ≠ [] := by rintro rfl; simp at h
  have hl : (d.take 49152).length = 49152 := by rw [List.length_take]; omega
  refine ⟨first own flags a d [], run_cons rfl (run_cons (step_first own flags a d [] hd) rfl), rfl, ?_⟩
  simp only [seen, first, afterRecv, setPk_n]
  have h2 : d.take recvMax = d.take 49152 := rfl
  have h3 : (bound own flags).n = 1 := rfl
  simp only [h2, hl, h3, setPk_same]
  rw [List.take_left' hl, List.getElem?_append_right (by omega)]
  simp [hl, alignUp2]

/-! ### Replies -/

/-- Neither a receive nor a change of the destination. -/
def Quiet (o : Op) : Prop := o ≠ .recv ∧ ∀ a f, o ≠ .dest a f

/-- The socket's address is that of the packet's sender. -/
structure From (s : St) (p : Nat) (a : Addr) : Prop where
  sock : s.sockaddr = a
  wait : s.wait = none
  own : (s.pk p).addr = .own a
  ip : (s.pk p).ip = none ∨ (s.pk p).ip = some a

theorem From.set {s : St} {p : Nat} {a : Addr} (h : From s p a) (q : Nat) (x : Packet) (h1 : x.addr = (s.pk q).addr)
    (h2 : x.ip = (s.pk q).ip ∨ (q = p → x.ip = some a)) : From (s.setPk q x) p a := by
  refine ⟨h.sock, h.wait, ?_, ?_⟩
  · by_cases hq : p = q
    · subst hq; rw [setPk_same, h1, h.own]
    · rw [setPk_other _ _ _ _ hq, h.own]
  · by_cases hq : p = q
    · subst hq
      rw [setPk_same]
      rcases h2 with h2 | h2
      · rw [h2]; exact h.ip
      · right; exact h2 rfl
    · rw [setPk_other _ _ _ _ hq]; exact h.ip

theorem From.kernel {s s' : St} {p : Nat} {a b : Addr} {n : Nat} {d : Bytes} {r : Ret} (h : From s p a)
    (e : sendtoKernel s b n d = (s', r)) : From s' p a := by
  unfold sendtoKernel at e
  by_cases hc : n < (if b.v6 then 24 else 16)
  · rw [if_pos hc] at e
    simp only [Prod.mk.injEq] at e
    obtain ⟨e, e'⟩ := e; subst e e'
    exact h
  · rw [if_neg hc] at e
    simp only [Prod.mk.injEq] at e
    obtain ⟨e, e'⟩ := e; subst e e'
    exact ⟨h.sock, h.wait, h.own, h.ip⟩

theorem From.step {s s' : St} {p : Nat} {a : Addr} {o : Op} {r : Ret} (h : From s p a) (hq : Quiet o)
    (e : step s o = .ok (s', r)) : From s' p a := by
  cases o with
  | arrive b d =>
    simp only [Udp.step, Res.ok.injEq, Prod.mk.injEq] at e
    obtain ⟨e, e'⟩ := e; subst e e'
    exact ⟨h.sock, h.wait, h.own, h.ip⟩
  | recv => exact absurd rfl hq.1
  | wake =>
    simp only [Udp.step, h.wait, Res.ok.injEq, Prod.mk.injEq] at e
    obtain ⟨e, e'⟩ := e; subst e e'
    exact h
  | fail =>
    simp only [Udp.step, h.wait, Res.ok.injEq, Prod.mk.injEq] at e
    obtain ⟨e, e'⟩ := e; subst e e'
    exact h
  | handle q =>
    simp only [Udp.step, Res.ok.injEq, Prod.mk.injEq] at e
    obtain ⟨e, e'⟩ := e; subst e e'
    exact h.set _ _ rfl (.inl rfl)
  | message q =>
    simp only [Udp.step] at e
    split at e
    · split at e
      · simp only [Res.ok.injEq, Prod.mk.injEq] at e
        obtain ⟨e, e'⟩ := e; subst e e'
        exact h.set _ _ rfl (.inl rfl)
      · simp only [Res.ok.injEq, Prod.mk.injEq] at e
        obtain ⟨e, e'⟩ := e; subst e e'
        exact h
    · cases e
  | ip q =>
    simp only [Udp.step] at e
    split at e
    · split at e
      · simp only [Res.ok.injEq, Prod.mk.injEq] at e
        obtain ⟨e, e'⟩ := e; subst e e'
        exact h
      · obtain ⟨b, hb, e⟩ := Res.bind_eq_ok.1 e
        simp only [Res.ok.injEq, Prod.mk.injEq] at e
        obtain ⟨e, e'⟩ := e; subst e e'
        refine h.set _ _ rfl (.inr fun hqp => ?_)
        subst hqp
        unfold deref at hb
        rw [h.own] at hb
        dsimp only at hb ⊢
        split at hb
        · simpa using hb.symm
        · cases hb
    · cases e
  | length q =>
    simp only [Udp.step] at e
    split at e
    · simp only [Res.ok.injEq, Prod.mk.injEq] at e
      obtain ⟨e, e'⟩ := e; subst e e'
      exact h
    · cases e
  | send q d =>
    simp only [Udp.step] at e
    split at e
    · exact h.kernel (Res.ok.inj e)
    · cases e
  | finish q ptr pre =>
    simp only [Udp.step] at e
    split at e
    · cases e
    · obtain ⟨x, _, e⟩ := Res.bind_eq_ok.1 e
      simp only [Res.ok.injEq, Prod.mk.injEq] at e
      obtain ⟨e, e'⟩ := e; subst e e'
      have := h.set q { s.pk q with
        live := (s.pk q).live && !((s.pk q).garbage.contains .packet)
        msgLive := (s.pk q).msgLive && !((s.pk q).garbage.contains .message)
        garbage := [] } rfl (.inl rfl)
      exact ⟨this.sock, this.wait, this.own, this.ip⟩
  | dest b f => exact absurd rfl (hq.2 b f)
  | sendto d =>
    simp only [Udp.step] at e
    split at e
    · obtain ⟨x, _, e⟩ := Res.bind_eq_ok.1 e
      split at e
      · exact h.kernel (Res.ok.inj e)
      · split at e <;>
        · simp only [Res.ok.injEq, Prod.mk.injEq] at e
          obtain ⟨e, e'⟩ := e; subst e e'
          exact ⟨h.sock, h.wait, h.own, h.ip⟩
    · cases e

theorem From.run {s s' : St} {p : Nat} {a : Addr} {ops : List Op} {rs : List Ret} (h : From s p a)
    (hq : ∀ o ∈ ops, Quiet o) (e : run s ops = .ok (s', rs)) : From s' p a := by
  induction ops generalizing s rs with
  | nil =>
    simp only [Udp.run, Res.ok.injEq, Prod.mk.injEq] at e
    obtain ⟨e, e'⟩ := e; subst e e'
    exact h
  | cons o ops ih =>
    rw [Udp.run] at e
    obtain ⟨⟨s1, r⟩, e1, e⟩ := Res.bind_eq_ok.1 e
    obtain ⟨⟨s2, rs'⟩, e2, e⟩ := Res.bind_eq_ok.1 e
    simp only [Res.ok.injEq, Prod.mk.injEq] at e
    obtain ⟨e, e'⟩ := e; subst e e'
    exact ih (h.step (hq o (by simp)) e1) (fun x hx => hq x (by simp [hx])) e2

theorem attempt_from {s s' : St} {q p : Nat} {a : Addr} {d : Bytes} {rest : List (Addr × Bytes)}
    (hq : s.inq = (a, d) :: rest) (e : attempt s q = .ok (s', .packet p)) : From s' p a := by
  by_cases hl : (s.pk q).live = true
  · by_cases hd : d = []
    · exfalso
      unfold attempt at e
      rw [if_pos hl, hq] at e
      dsimp only at e
      rw [if_neg (by rw [take_pos]; simp [hd])] at e
      simp at e
    · rw [attempt_eq s q a d rest hl hq hd] at e
      simp only [Res.ok.injEq, Prod.mk.injEq, Ret.packet.injEq] at e
      obtain ⟨e, e'⟩ := e; subst e e'
      refine ⟨rfl, rfl, ?_, .inl ?_⟩ <;> simp [afterRecv]
  · exfalso
    unfold attempt at e
    rw [if_neg hl] at e
    cases e

/-- C96: as long as no further receive is started on the socket (and no destination set with `udp_to`), a reply to the packet
that was received last goes to the sender of its datagram, whole, and `udp_ip` names this sender — whatever else happens
meanwhile. -/
theorem udp_reply_to_sender_partial {s s1 s2 : St} {o : Op} {p : Nat} {a : Addr} {d : Bytes} {rest : List (Addr × Bytes)}
    {ops : List Op} {rs : List Ret} (hi : s.inq = (a, d) :: rest) (hr : step s o = .ok (s1, .packet p))
    (hq : ∀ o ∈ ops, Quiet o) (e : run s1 ops = .ok (s2, rs)) :
    (∀ x s3 r, step s2 (.send p x) = .ok (s3, r) → s3.out = s2.out ++ [(a, x)] ∧ r = .num x.length) ∧
    (∀ s3 r, step s2 (.ip p) = .ok (s3, r) → r = .addr (some a)) := by
  have h1 : From s1 p a := by
    cases o with
    | recv =>
      simp only [step] at hr
      split at hr
      · simp at hr
      · split at hr
        · exact attempt_from (by simpa using hi) hr
        · cases hr
    | wake =>
      simp only [step] at hr
      split at hr
      · exact attempt_from hi hr
      · simp at hr
    | arrive b d => simp [step] at hr
    | fail => simp only [step] at hr; split at hr <;> simp at hr
    | handle q => simp [step] at hr
    | message q =>
      simp only [step] at hr
      split at hr
      · split at hr <;> simp at hr
      · cases hr
    | ip q =>
      simp only [step] at hr
      split at hr
      · split at hr
        · simp at hr
        · obtain ⟨b, _, hr⟩ := Res.bind_eq_ok.1 hr
          simp at hr
      · cases hr
    | length q => simp only [step] at hr; split at hr <;> simp at hr
    | send q d =>
      simp only [step] at hr
      split at hr
      · have := Res.ok.inj hr
        unfold sendtoKernel at this
        by_cases hc : (if s.sockaddr.v6 then 28 else 16) < (if s.sockaddr.v6 then 24 else 16)
        · rw [if_pos hc] at this; simp at this
        · rw [if_neg hc] at this; simp at this
      · cases hr
    | finish q ptr pre =>
      simp only [step] at hr
      split at hr
      · cases hr
      · obtain ⟨x, _, hr⟩ := Res.bind_eq_ok.1 hr
        simp at hr
    | dest b f => simp only [step] at hr; split at hr <;> simp at hr
    | sendto d =>
      simp only [step] at hr
      split at hr
      · obtain ⟨x, _, hr⟩ := Res.bind_eq_ok.1 hr
        split at hr
        · have := Res.ok.inj hr
          rename_i b _
          unfold sendtoKernel at this
          by_cases hc : 16 < (if b.v6 then 24 else 16)
          · rw [if_pos hc] at this; simp at this
          · rw [if_neg hc] at this; simp at this
        · split at hr <;> simp at hr
      · cases hr
  have h2 := h1.run hq e
  refine ⟨fun x s3 r hs => ?_, fun s3 r hs => ?_⟩
  · simp only [step] at hs
    split at hs
    · have := Res.ok.inj hs
      unfold sendtoKernel at this
      rw [if_neg (by split <;> omega), h2.sock] at this
      simp only [Prod.mk.injEq] at this
      obtain ⟨e1, e2⟩ := this
      subst e1 e2
      exact ⟨rfl, rfl⟩
    · cases hs
  · simp only [step] at hs
    split at hs
    · split at hs
      · rename_i b hb
        simp only [Res.ok.injEq, Prod.mk.injEq] at hs
        rw [← hs.2]
        rcases h2.ip with h | h
        · rw [h] at hb; cases hb
        · rw [h] at hb; cases hb; rfl
      · obtain ⟨b, hb, hs⟩ := Res.bind_eq_ok.1 hs
        simp only [Res.ok.injEq, Prod.mk.injEq] at hs
        rw [← hs.2]
        unfold deref at hb
        rw [h2.own] at hb
        dsimp only at hb
        split at hb
        · rw [← Res.ok.inj hb]
        · cases hb
    · cases hs

/-- The state after two datagrams were received. -/
def second (own : Addr) (flags : Nat) (a b : Addr) (d1 d2 : Bytes) : St :=
  afterRecv ((first own flags a d1 [(b, d2)]).setPk 1 { (first own flags a d1 [(b, d2)]).pk 1 with addr := .sock }) 1 b d2 []

theorem run_second (own : Addr) (flags : Nat) (a b : Addr) (d1 d2 : Bytes) (h1 : d1 ≠ []) (h2 : d2 ≠ []) (l : List Op)
    (s : St) (rs : List Ret) (h : run (second own flags a b d1 d2) l = .ok (s, rs)) :
    run (bound own flags) (.arrive a d1 :: .arrive b d2 :: .recv :: .recv :: l) =
      .ok (s, .unit :: .unit :: .packet 1 :: .packet 2 :: rs) := by
  refine run_cons rfl (run_cons rfl (run_cons (step_first own flags a d1 [(b, d2)] h1) (run_cons ?_ h)))
  exact step_recv (first own flags a d1 [(b, d2)]) b d2 [] rfl rfl rfl h2

/-- C96 is false: when two datagrams were received, the reply to the first one is sent to the sender of the second. -/
theorem udp_reply_goes_astray (own a b : Addr) (flags : Nat) (d1 d2 x : Bytes) (h1 : d1 ≠ []) (h2 : d2 ≠ []) :
    ∃ s, run (bound own flags) [.arrive a d1, .arrive b d2, .recv, .recv, .send 1 x] =
      .ok (s, [.unit, .unit, .packet 1, .packet 2, .num x.length]) ∧ s.out = [(b, x)] := by
  refine ⟨{ second own flags a b d1 d2 with out := [(b, x)] }, run_second own flags a b d1 d2 h1 h2 _ _ _ ?_, rfl⟩
  refine run_cons ?_ rfl
  have hl : ((second own flags a b d1 d2).pk 1).live = true := rfl
  have hs : (second own flags a b d1 d2).sockaddr = b := rfl
  have ho : (second own flags a b d1 d2).out = [] := rfl
  simp only [step, hl, if_true, hs, sendtoKernel, ho]
  rw [if_neg (by split <;> omega)]
  rfl

/-- C96 is false: `udp_ip` of the first packet, asked after the second receive, names the sender of the second. -/
theorem udp_ip_of_another (own a b : Addr) (flags : Nat) (d1 d2 : Bytes) (h1 : d1 ≠ []) (h2 : d2 ≠ []) :
    ∃ s, run (bound own flags) [.arrive a d1, .arrive b d2, .recv, .recv, .ip 1] =
      .ok (s, [.unit, .unit, .packet 1, .packet 2, .addr (some b)]) := by
  refine ⟨(second own flags a b d1 d2).setPk 1 { (second own flags a b d1 d2).pk 1 with ip := some b },
    run_second own flags a b d1 d2 h1 h2 _ _ _ (run_cons (by rfl) rfl)⟩

/-! ### Lifetimes -/

/-- C97: as long as no task that opened the socket or handles a packet ends, nothing is used that was freed. -/
theorem udp_safe_while_tasks_live_partial {s : St} (h : Fresh s) (ops : List Op)
    (hf : ∀ o ∈ ops, ∀ p ptr pre, o ≠ .finish p ptr pre) : ∃ r, run s ops = .ok r := by
  have hl : ∀ p, (s.pk p).live = true ∧ (s.pk p).msgLive = true := by
    rcases h with ⟨own, flags, rfl⟩ | ⟨peer, rfl⟩ <;> exact fun p => ⟨rfl, rfl⟩
  clear h
  have hset : ∀ (s : St) q x, (∀ p, (s.pk p).live = true ∧ (s.pk p).msgLive = true) →
      (x.live = true ∧ x.msgLive = true) → ∀ p, ((s.setPk q x).pk p).live = true ∧ ((s.setPk q x).pk p).msgLive = true := by
    intro s q x h hx p
    by_cases hp : p = q
    · subst hp; rw [setPk_same]; exact hx
    · rw [setPk_other _ _ _ _ hp]; exact h p
  have hat : ∀ (s : St) q, (∀ p, (s.pk p).live = true ∧ (s.pk p).msgLive = true) →
      ∃ s' r, attempt s q = .ok (s', r) ∧ ∀ p, (s'.pk p).live = true ∧ (s'.pk p).msgLive = true := by
    intro s q h
    cases hi : s.inq with
    | nil =>
      exact ⟨{ s with wait := some q }, .waits, by unfold attempt; rw [if_pos (h q).1, hi], h⟩
    | cons x rest =>
      obtain ⟨a, d⟩ := x
      by_cases hd : d = []
      · refine ⟨{ s with sockaddr := a, inq := rest, wait := none }, .null, ?_, h⟩
        unfold attempt
        rw [if_pos (h q).1, hi]
        dsimp only
        rw [if_neg (by rw [take_pos]; simp [hd])]
      · refine ⟨_, _, attempt_eq s q a d rest (h q).1 hi hd, ?_⟩
        exact hset { s with sockaddr := a, inq := rest, wait := none } s.n _ h ⟨rfl, rfl⟩
  have hder : ∀ (s : St) q, (∀ p, (s.pk p).live = true ∧ (s.pk p).msgLive = true) → ∃ a, deref s q = .ok a := by
    intro s q h
    unfold deref
    cases (s.pk q).addr with
    | null => exact ⟨_, rfl⟩
    | sock => exact ⟨_, rfl⟩
    | own a => exact ⟨_, if_pos (h q).2⟩
  have hk : ∀ (s : St) a n d, (∀ p, (s.pk p).live = true ∧ (s.pk p).msgLive = true) →
      ∀ p, ((sendtoKernel s a n d).1.pk p).live = true ∧ ((sendtoKernel s a n d).1.pk p).msgLive = true := by
    intro s a n d h p
    unfold sendtoKernel
    by_cases hc : n < (if a.v6 then 24 else 16)
    · rw [if_pos hc]; exact h p
    · rw [if_neg hc]; exact h p
  have hstep : ∀ (s : St) o, (∀ p, (s.pk p).live = true ∧ (s.pk p).msgLive = true) → (∀ p ptr pre, o ≠ .finish p ptr pre) →
      ∃ s' r, step s o = .ok (s', r) ∧ ∀ p, (s'.pk p).live = true ∧ (s'.pk p).msgLive = true := by
    intro s o h ho
    cases o with
    | arrive a d => exact ⟨_, _, rfl, h⟩
    | recv =>
      by_cases hw : s.wait = none
      · obtain ⟨s', r, e, h'⟩ := hat (s.setPk s.target { s.pk s.target with addr := .sock }) s.target
          (hset s _ _ h (h s.target))
        exact ⟨s', r, by simpa [step, hw, (h s.target).1] using e, h'⟩
      · exact ⟨s, .unit, by simp [step, hw], h⟩
    | wake =>
      cases hw : s.wait with
      | none => exact ⟨s, .unit, by simp [step, hw], h⟩
      | some p =>
        obtain ⟨s', r, e, h'⟩ := hat s p h
        exact ⟨s', r, by simpa [step, hw] using e, h'⟩
    | fail =>
      cases hw : s.wait with
      | none => exact ⟨s, .unit, by simp [step, hw], h⟩
      | some p => exact ⟨{ s with wait := none }, .null, by simp [step, hw], h⟩
    | handle p => exact ⟨_, _, rfl, hset s p _ h (h p)⟩
    | message p =>
      simp only [step, (h p).1, (h p).2, Bool.and_self, if_true]
      split
      · exact ⟨_, _, rfl, hset s p _ h ⟨rfl, rfl⟩⟩
      · exact ⟨_, _, rfl, h⟩
    | ip p =>
      obtain ⟨a, ha⟩ := hder s p h
      simp only [step, (h p).1, if_true, ha, Res.ok_bind]
      split
      · exact ⟨_, _, rfl, h⟩
      · exact ⟨_, _, rfl, hset s p _ h ⟨rfl, (h p).2⟩⟩
    | length p => exact ⟨s, .num (s.pk p).nread, by simp only [step, (h p).1, if_true], h⟩
    | send p d =>
      simp only [step, (h p).1, if_true]
      exact ⟨_, _, rfl, hk s _ _ d h⟩
    | finish p ptr pre => exact absurd rfl (ho p ptr pre)
    | dest a f =>
      simp only [step, (h s.target).1, if_true]
      exact ⟨_, _, rfl, hset s s.target _ h ⟨rfl, (h s.target).2⟩⟩
    | sendto d =>
      obtain ⟨a, ha⟩ := hder s s.target h
      simp only [step, (h s.target).1, if_true, ha, Res.ok_bind]
      cases a with
      | some a => exact ⟨_, _, rfl, hk s a 16 d h⟩
      | none =>
        dsimp only
        cases s.peer with
        | some b => exact ⟨_, _, rfl, h⟩
        | none => exact ⟨_, _, rfl, h⟩
  induction ops generalizing s with
  | nil => exact ⟨_, rfl⟩
  | cons o ops ih =>
    obtain ⟨s1, r, e, h1⟩ := hstep s o hl (hf o (by simp))
    obtain ⟨⟨s2, rs⟩, e2⟩ := ih (fun x hx => hf x (by simp [hx])) h1
    exact ⟨_, run_cons e e2⟩

/-- C97 is false: a server that handles its first packet in a task of its own, as `udp_handler` does, uses freed memory when it
receives again after this task has ended: the packet is still the socket's. -/
theorem udp_receive_after_handler_ub (own a : Addr) (flags : Nat) (d x : Bytes) (hd : d ≠ []) (ptr pre : Nat) (later : List Op) :
    run (bound own flags) (.arrive a d :: .recv :: .handle 1 :: .message 1 :: .send 1 x :: .finish 1 ptr pre :: .recv :: later)
      = .ub := by
  refine run_cons_ub rfl (run_cons_ub (step_first own flags a d [] hd) (run_cons_ub rfl ?_))
  obtain ⟨s1, r1, e1, t1, w1, l1, g1⟩ : ∃ s1 r1, step ((first own flags a d []).setPk 1
      { (first own flags a d []).pk 1 with garbage := ((first own flags a d []).pk 1).garbage ++ [.packet] }) (.message 1) =
      .ok (s1, r1) ∧ s1.target = 1 ∧ s1.wait = none ∧ (s1.pk 1).live = true ∧ Garb.packet ∈ (s1.pk 1).garbage := by
    simp only [step]
    split
    · split
      · exact ⟨_, _, rfl, rfl, rfl, rfl, by simp⟩
      · exact ⟨_, _, rfl, rfl, rfl, rfl, by simp⟩
    · rename_i h
      exact absurd rfl h
  refine run_cons_ub e1 ?_
  obtain ⟨s2, r2, e2, t2, w2, p2⟩ : ∃ s2 r2, step s1 (.send 1 x) = .ok (s2, r2) ∧ s2.target = 1 ∧ s2.wait = none ∧
      s2.pk = s1.pk := by
    simp only [step, l1, if_true, sendtoKernel]
    rw [if_neg (by split <;> omega)]
    exact ⟨_, _, rfl, t1, w1, rfl⟩
  refine run_cons_ub e2 ?_
  cases e3 : step s2 (.finish 1 ptr pre) with
  | ub => exact run_ub e3
  | ok q =>
    obtain ⟨s3, r3⟩ := q
    refine run_cons_ub e3 (run_ub ?_)
    simp only [step] at e3
    split at e3
    · cases e3
    · obtain ⟨y, _, e3⟩ := Res.bind_eq_ok.1 e3
      simp only [Res.ok.injEq, Prod.mk.injEq] at e3
      obtain ⟨e3, _⟩ := e3
      subst e3
      have hg : (s2.pk 1).garbage.contains Garb.packet = true := by
        rw [p2]; simpa using g1
      simp only [step, setPk_wait, w2, setPk_target, t2, setPk_same, hg]
      simp

/-- C97 is false also if the receiver waits already when the handler's task ends. -/
theorem udp_waiting_receive_ub (own a : Addr) (flags : Nat) (d : Bytes) (hd : d ≠ []) (ptr pre : Nat) (later : List Op) :
    run (bound own flags) (.arrive a d :: .recv :: .handle 1 :: .recv :: .finish 1 ptr pre :: .wake :: later) = .ub := by
  refine run_cons_ub rfl (run_cons_ub (step_first own flags a d [] hd) (run_cons_ub rfl (run_cons_ub (by rfl)
    (run_cons_ub (by rfl) (run_ub (by rfl))))))

theorem finish_step (s : St) (p ptr pre : Nat) {r : List Done} (h1 : freesTwice (s.pk p) = false)
    (h2 : release p ptr pre (s.pk p).message (s.pk p).garbage.reverse = .ok r) : step s (.finish p ptr pre) = .ok
      ({ s.setPk p { s.pk p with
        live := (s.pk p).live && !((s.pk p).garbage.contains .packet)
        msgLive := (s.pk p).msgLive && !((s.pk p).garbage.contains .message)
        garbage := [] } with done := s.done ++ r }, .unit) := by
  simp only [step, h1, h2]
  rfl

theorem message_step (s : St) (p : Nat) (h1 : (s.pk p).live = true) (h2 : (s.pk p).msgLive = true)
    (h3 : (s.pk p).message ≠ []) (h4 : (s.pk p).isSet = true) : step s (.message p) = .ok (s.setPk p { s.pk p with
          isSet := false
          garbage := (s.pk p).garbage ++ [Garb.message] ++
            (if (s.pk p).addr = .null then [] else [Garb.addr (s.pk p).addr]) }, .bytes (s.pk p).message) := by
  simp only [step, h1, h2, Bool.and_self, if_true]
  rw [if_pos ⟨h3, h4⟩]

/-- C97 is false: a handler that asks for the message after the next receive has begun frees a part of the table of
descriptors when it ends. -/
theorem udp_late_message_ub (own a b : Addr) (flags : Nat) (d1 d2 : Bytes) (h1 : d1 ≠ []) (h2 : d2 ≠ []) (ptr pre : Nat)
    (later : List Op) :
    run (bound own flags) (.arrive a d1 :: .arrive b d2 :: .recv :: .recv :: .handle 1 :: .message 1 :: .finish 1 ptr pre :: later)
      = .ub := by
  refine run_cons_ub rfl (run_cons_ub rfl (run_cons_ub (step_first own flags a d1 [(b, d2)] h1) (run_cons_ub
    (step_recv (first own flags a d1 [(b, d2)]) b d2 [] rfl rfl rfl h2) (run_cons_ub rfl ?_))))
  have hm : d1.take recvMax ++ List.replicate (alignUp2 ((d1.take recvMax).length + 1) - (d1.take recvMax).length) 0 ≠ [] := by
    intro h
    have := take_pos.2 h1
    rw [(List.append_eq_nil_iff.1 h).1] at this
    simp at this
  refine run_cons_ub (message_step _ 1 rfl rfl hm rfl) (run_ub ?_)
  rfl

/-! ### Memory -/

/-- How often a packet's message was freed. -/
def freed (s : St) (p : Nat) : Nat := s.done.count (.freeMessage p)

/-- What the messages of packets have been through. -/
def Once (s : St) : Prop := ∀ p,
  freed s p + (s.pk p).garbage.count .message ≤ 1 ∧
  ((s.pk p).isSet = true → freed s p + (s.pk p).garbage.count .message = 0) ∧
  (s.n ≤ p → (s.pk p).message = [] ∧ freed s p + (s.pk p).garbage.count .message = 0)

theorem unwind1_frees_once {e : Entry} {acts : List Act} (h : unwind1 e = .ok acts) : acts.count (.free e.ptr) ≤ 1 := by
  unfold unwind1 at h
  split at h
  · obtain ⟨t, _, h⟩ := Res.bind_eq_ok.1 h
    split at h
    · rw [← Res.ok.inj h]; simp
    · split at h
      · obtain ⟨i, _, h⟩ := Res.bind_eq_ok.1 h
        split at h
        · obtain ⟨x, _, h⟩ := Res.bind_eq_ok.1 h
          obtain ⟨y, _, h⟩ := Res.bind_eq_ok.1 h
          rw [← Res.ok.inj h]; simp
        · obtain ⟨x, _, h⟩ := Res.bind_eq_ok.1 h
          obtain ⟨y, _, h⟩ := Res.bind_eq_ok.1 h
          rw [← Res.ok.inj h]; simp
      · split at h
        · obtain ⟨x, _, h⟩ := Res.bind_eq_ok.1 h
          rw [← Res.ok.inj h]; simp
        · rw [← Res.ok.inj h]; simp
  · rw [← Res.ok.inj h]; simp

theorem count_acts (acts : List Act) (p q ptr : Nat) :
    (acts.map fun x => if x = .free ptr then Done.freeMessage p else .act x).count (.freeMessage q) =
      if q = p then acts.count (.free ptr) else 0 := by
  induction acts with
  | nil => simp
  | cons x l ih =>
    rw [List.map_cons, List.count_cons, ih, List.count_cons]
    by_cases hx : x = .free ptr
    · subst hx
      by_cases hq : q = p
      · subst hq; simp
      · have : ¬(p = q) := fun h => hq h.symm
        simp [hq, this]
    · simp [hx]

theorem release_count {p ptr pre : Nat} {msg : Bytes} {l : List Garb} {r : List Done} (h : release p ptr pre msg l = .ok r)
    (q : Nat) : r.count (.freeMessage q) ≤ if q = p then l.count .message else 0 := by
  induction l generalizing r with
  | nil => rw [← Res.ok.inj h]; simp
  | cons g l ih =>
    cases g with
    | packet =>
      obtain ⟨x, hx, h⟩ := Res.bind_eq_ok.1 h
      rw [← Res.ok.inj h, List.count_cons_of_ne (by simp), List.count_cons_of_ne (by simp)]
      exact ih hx
    | message =>
      obtain ⟨acts, ha, h⟩ := Res.bind_eq_ok.1 h
      obtain ⟨x, hx, h⟩ := Res.bind_eq_ok.1 h
      rw [← Res.ok.inj h, List.count_append, count_acts, List.count_cons_self]
      have h1 := unwind1_frees_once ha
      have h2 := ih hx
      dsimp only at h1
      split_ifs at h2 ⊢ <;> omega
    | addr a =>
      cases a with
      | own b =>
        obtain ⟨x, hx, h⟩ := Res.bind_eq_ok.1 h
        rw [← Res.ok.inj h, List.count_cons_of_ne (by simp), List.count_cons_of_ne (by simp)]
        exact ih hx
      | null => cases h
      | sock => cases h

theorem Once.of_same {s s' : St} (h : Once s) (hn : s'.n = s.n) (hd : s'.done = s.done)
    (hp : ∀ q, (s'.pk q).garbage.count .message = (s.pk q).garbage.count .message ∧ (s'.pk q).isSet = (s.pk q).isSet ∧
      (s'.pk q).message = (s.pk q).message) : Once s' := by
  intro q
  obtain ⟨h1, h2, h3⟩ := hp q
  have e : freed s' q = freed s q := by unfold freed; rw [hd]
  rw [e, h1, h2, h3, hn]
  exact h q

theorem once_set (s : St) (i : Nat) (x : Packet) (h1 : x.garbage.count .message = (s.pk i).garbage.count .message)
    (h2 : x.isSet = (s.pk i).isSet) (h3 : x.message = (s.pk i).message) (q : Nat) :
    ((s.setPk i x).pk q).garbage.count .message = (s.pk q).garbage.count .message ∧
      ((s.setPk i x).pk q).isSet = (s.pk q).isSet ∧ ((s.setPk i x).pk q).message = (s.pk q).message := by
  by_cases h : q = i
  · subst h; rw [setPk_same]; exact ⟨h1, h2, h3⟩
  · rw [setPk_other _ _ _ _ h]; exact ⟨rfl, rfl, rfl⟩

theorem once_attempt {s s' : St} {p : Nat} {r : Ret} (h : Once s) (e : attempt s p = .ok (s', r)) : Once s' := by
  by_cases hl : (s.pk p).live = true
  · cases hq : s.inq with
    | nil =>
      unfold attempt at e
      rw [if_pos hl, hq] at e
      simp only [Res.ok.injEq, Prod.mk.injEq] at e
      obtain ⟨e, _⟩ := e; subst e
      exact h
    | cons x rest =>
      obtain ⟨a, d⟩ := x
      by_cases hd : d = []
      · unfold attempt at e
        rw [if_pos hl, hq] at e
        dsimp only at e
        rw [if_neg (by rw [take_pos]; simp [hd])] at e
        simp only [Res.ok.injEq, Prod.mk.injEq] at e
        obtain ⟨e, _⟩ := e; subst e
        exact h
      · rw [attempt_eq s p a d rest hl hq hd] at e
        simp only [Res.ok.injEq, Prod.mk.injEq] at e
        obtain ⟨e, _⟩ := e; subst e
        intro q
        by_cases hqn : q = s.n
        · subst hqn
          have h0 := (h s.n).2.2 (Nat.le_refl _)
          have hz : freed s s.n = 0 := by omega
          have e1 : freed (afterRecv s p a d rest) s.n = 0 := hz
          have e2 : ((afterRecv s p a d rest).pk s.n).garbage = [] := by
            unfold afterRecv
            dsimp only
            rw [setPk_same]
          rw [e1, e2]
          refine ⟨by simp, fun _ => by simp, fun hn => ?_⟩
          exact absurd hn (Nat.not_succ_le_self _)
        · have e1 : freed (afterRecv s p a d rest) q = freed s q := rfl
          have e2 : (afterRecv s p a d rest).pk q = s.pk q := by
            unfold afterRecv
            dsimp only
            rw [setPk_other _ _ _ _ hqn]
          rw [e1, e2]
          refine ⟨(h q).1, (h q).2.1, fun hn => (h q).2.2 ?_⟩
          have : s.n + 1 ≤ q := hn
          omega
  · unfold attempt at e
    rw [if_neg hl] at e
    cases e

theorem once_kernel {s s' : St} {b : Addr} {n : Nat} {d : Bytes} {r : Ret} (h : Once s)
    (e : sendtoKernel s b n d = (s', r)) : Once s' := by
  unfold sendtoKernel at e
  by_cases hc : n < (if b.v6 then 24 else 16)
  · rw [if_pos hc] at e
    simp only [Prod.mk.injEq] at e
    obtain ⟨e, _⟩ := e; subst e
    exact h
  · rw [if_neg hc] at e
    simp only [Prod.mk.injEq] at e
    obtain ⟨e, _⟩ := e; subst e
    exact h

theorem once_step {s s' : St} {o : Op} {r : Ret} (h : Once s) (e : step s o = .ok (s', r)) : Once s' := by
  cases o with
  | arrive a d =>
    simp only [step, Res.ok.injEq, Prod.mk.injEq] at e
    obtain ⟨e, _⟩ := e; subst e
    exact h
  | recv =>
    simp only [step] at e
    split at e
    · simp only [Res.ok.injEq, Prod.mk.injEq] at e
      obtain ⟨e, _⟩ := e; subst e
      exact h
    · split at e
      · have h' : Once (s.setPk s.target { s.pk s.target with addr := .sock }) :=
          h.of_same rfl rfl (once_set _ _ _ rfl rfl rfl)
        exact once_attempt h' e
      · cases e
  | wake =>
    simp only [step] at e
    split at e
    · exact once_attempt h e
    · simp only [Res.ok.injEq, Prod.mk.injEq] at e
      obtain ⟨e, _⟩ := e; subst e
      exact h
  | fail =>
    simp only [step] at e
    split at e <;>
    · simp only [Res.ok.injEq, Prod.mk.injEq] at e
      obtain ⟨e, _⟩ := e; subst e
      exact h
  | handle p =>
    simp only [step, Res.ok.injEq, Prod.mk.injEq] at e
    obtain ⟨e, _⟩ := e; subst e
    exact h.of_same rfl rfl (once_set _ _ _ (by simp [List.count_append]) rfl rfl)
  | message p =>
    simp only [step] at e
    split at e
    · split at e
      · rename_i hm
        simp only [Res.ok.injEq, Prod.mk.injEq] at e
        obtain ⟨e, _⟩ := e; subst e
        intro q
        by_cases hq : q = p
        · subst hq
          have h0 := (h q).2.1 hm.2
          have e1 : freed (s.setPk q { s.pk q with
            isSet := false
            garbage := (s.pk q).garbage ++ [Garb.message] ++
              (if (s.pk q).addr = .null then [] else [Garb.addr (s.pk q).addr]) }) q = freed s q := rfl
          rw [e1, setPk_same]
          have e2 : ((s.pk q).garbage ++ [Garb.message] ++
              (if (s.pk q).addr = .null then [] else [Garb.addr (s.pk q).addr])).count .message =
              (s.pk q).garbage.count .message + 1 := by
            split <;> simp [List.count_append]
          dsimp only
          rw [e2]
          refine ⟨by omega, fun hc => (by cases hc), fun hn => ?_⟩
          exact absurd ((h q).2.2 hn).1 hm.1
        · have := h q
          unfold Once freed at *
          rw [setPk_other _ _ _ _ hq]
          exact this
      · simp only [Res.ok.injEq, Prod.mk.injEq] at e
        obtain ⟨e, _⟩ := e; subst e
        exact h
    · cases e
  | ip p =>
    simp only [step] at e
    split at e
    · split at e
      · simp only [Res.ok.injEq, Prod.mk.injEq] at e
        obtain ⟨e, _⟩ := e; subst e
        exact h
      · obtain ⟨a, _, e⟩ := Res.bind_eq_ok.1 e
        simp only [Res.ok.injEq, Prod.mk.injEq] at e
        obtain ⟨e, _⟩ := e; subst e
        exact h.of_same rfl rfl (once_set _ _ _ rfl rfl rfl)
    · cases e
  | length p =>
    simp only [step] at e
    split at e
    · simp only [Res.ok.injEq, Prod.mk.injEq] at e
      obtain ⟨e, _⟩ := e; subst e
      exact h
    · cases e
  | send p d =>
    simp only [step] at e
    split at e
    · exact once_kernel h (Res.ok.inj e)
    · cases e
  | finish p ptr pre =>
    simp only [step] at e
    split at e
    · cases e
    · obtain ⟨x, hx, e⟩ := Res.bind_eq_ok.1 e
      simp only [Res.ok.injEq, Prod.mk.injEq] at e
      obtain ⟨e, _⟩ := e; subst e
      intro q
      have hc := release_count hx q
      simp only [List.count_reverse] at hc
      by_cases hq : q = p
      · subst hq
        rw [if_pos rfl] at hc
        simp only [freed, setPk_same, List.count_append, List.count_nil, Nat.add_zero]
        have := h q
        unfold freed at this
        refine ⟨by omega, fun hi => ?_, fun hn => ⟨(this.2.2 hn).1, ?_⟩⟩
        · have := this.2.1 hi; omega
        · have := (this.2.2 hn).2; omega
      · rw [if_neg hq] at hc
        simp only [freed, setPk_other _ _ _ _ hq, List.count_append]
        have := h q
        unfold freed at this
        have hc0 : x.count (Done.freeMessage q) = 0 := by omega
        rw [hc0, Nat.add_zero]
        exact this
  | dest a f =>
    simp only [step] at e
    split at e
    · simp only [Res.ok.injEq, Prod.mk.injEq] at e
      obtain ⟨e, _⟩ := e; subst e
      exact h.of_same rfl rfl (once_set _ _ _ rfl rfl rfl)
    · cases e
  | sendto d =>
    simp only [step] at e
    split at e
    · obtain ⟨x, _, e⟩ := Res.bind_eq_ok.1 e
      split at e
      · exact once_kernel h (Res.ok.inj e)
      · split at e <;>
        · simp only [Res.ok.injEq, Prod.mk.injEq] at e
          obtain ⟨e, _⟩ := e; subst e
          exact h
    · cases e

/-- C97: the memory of a message is freed at most once, in every execution. -/
theorem udp_message_freed_once {s0 s : St} {ops : List Op} {rs : List Ret} (h : Fresh s0) (e : run s0 ops = .ok (s, rs))
    (p : Nat) : s.done.count (.freeMessage p) ≤ 1 := by
  have h0 : Once s0 := by
    rcases h with ⟨own, flags, rfl⟩ | ⟨peer, rfl⟩ <;>
    · intro q
      refine ⟨by simp [freed, bound, connected, packet0], fun hc => ?_, fun _ => ⟨rfl, by
        simp [freed, bound, connected, packet0]⟩⟩
      cases hc
  have : Once s := by
    clear h
    induction ops generalizing s0 rs with
    | nil =>
      simp only [run, Res.ok.injEq, Prod.mk.injEq] at e
      obtain ⟨e, _⟩ := e; subst e
      exact h0
    | cons o ops ih =>
      rw [run] at e
      obtain ⟨⟨s1, r⟩, e1, e⟩ := Res.bind_eq_ok.1 e
      obtain ⟨⟨s2, rs'⟩, e2, e⟩ := Res.bind_eq_ok.1 e
      simp only [Res.ok.injEq, Prod.mk.injEq] at e
      obtain ⟨e, _⟩ := e; subst e
      exact ih e2 (once_step h0 e1)
  have := (this p).1
  unfold freed at this
  omega

theorem first_message (own : Addr) (flags : Nat) (a : Addr) (d : Bytes) (rest : List (Addr × Bytes)) :
    ((first own flags a d rest).pk 1).message =
      d.take 49152 ++ List.replicate (alignUp2 ((d.take 49152).length + 1) - (d.take 49152).length) 0 := rfl

/-- The first packet was received, its handler started and asked for the message. -/
theorem first_handled (own a : Addr) (flags : Nat) (d : Bytes) (rest : List (Addr × Bytes)) (hd : d ≠ []) :
    ∃ s : St, (s.pk 1).live = true ∧ s.sockaddr = a ∧ s.out = [] ∧ s.done = [] ∧
      (s.pk 1).garbage = [.packet, .message, .addr (.own a)] ∧ (s.pk 1).message = ((first own flags a d rest).pk 1).message ∧
      ∀ l s' rs, run s l = .ok (s', rs) →
        run { bound own flags with inq := (a, d) :: rest } (.recv :: .handle 1 :: .message 1 :: l) =
          .ok (s', .packet 1 :: .unit :: .bytes ((first own flags a d rest).pk 1).message :: rs) := by
  have hm : ((first own flags a d rest).pk 1).message ≠ [] := by
    rw [first_message]
    intro h
    have := take_pos.2 hd
    rw [show recvMax = 49152 from rfl, (List.append_eq_nil_iff.1 h).1] at this
    simp at this
  have e2 := message_step ((first own flags a d rest).setPk 1
    { (first own flags a d rest).pk 1 with garbage := ((first own flags a d rest).pk 1).garbage ++ [.packet] }) 1 rfl rfl hm rfl
  refine ⟨_, ?_, ?_, ?_, ?_, ?_, ?_, fun l s' rs h => run_cons (step_first own flags a d rest hd) (run_cons rfl (run_cons e2 h))⟩
  all_goals rfl

/-- C97: when a handler that asked for the message before the next receive ends, the packet, its message and its address are
freed, each once, if the message looks like plain memory (C94). -/
theorem udp_handled_packet_freed_partial (own a : Addr) (flags : Nat) (d x : Bytes) (rest : List (Addr × Bytes)) (hd : d ≠ [])
    (ptr pre : Nat) (hp : LooksPlain ⟨ptr, pre, ((first own flags a d rest).pk 1).message⟩) :
    ∃ s, run { bound own flags with inq := (a, d) :: rest } [.recv, .handle 1, .message 1, .send 1 x, .finish 1 ptr pre] =
        .ok (s, [.packet 1, .unit, .bytes ((first own flags a d rest).pk 1).message, .num x.length, .unit]) ∧
      s.out = [(a, x)] ∧ s.done = [.freeAddr 1, .freeMessage 1, .freePacket 1] := by
  obtain ⟨s, h1, h2, h3, h4, h5, h6, h7⟩ := first_handled own a flags d rest hd
  have e3 : step s (.send 1 x) = .ok ({ s with out := [(a, x)] }, .num x.length) := by
    simp only [step, h1, if_true, sendtoKernel, h3, h2]
    rw [if_neg (by split <;> omega)]
    rfl
  have e5 : release 1 ptr pre ((first own flags a d rest).pk 1).message [.addr (.own a), .message, .packet] =
      .ok [.freeAddr 1, .freeMessage 1, .freePacket 1] := by
    simp only [release, unwind1_plain hp, Res.ok_bind, List.map_cons, List.map_nil, if_true, List.cons_append, List.nil_append]
  have hr : release 1 ptr pre (s.pk 1).message (s.pk 1).garbage.reverse = .ok [.freeAddr 1, .freeMessage 1, .freePacket 1] := by
    rw [h5, h6]; exact e5
  have ht : freesTwice (s.pk 1) = false := by
    unfold freesTwice
    rw [h1, h5]
    simp [List.count_cons]
  have e4 := finish_step { s with out := [(a, x)] } 1 ptr pre ht hr
  refine ⟨_, h7 _ _ _ (run_cons e3 (run_cons e4 rfl)), rfl, ?_⟩
  show s.done ++ _ = _
  rw [h4]; rfl

/-- C94 and C97 are false of messages: for every function and argument there is a datagram of 40 bytes that makes the end of
its handler's task call that function with that argument, although the handler only asked for the message. -/
theorem udp_datagram_calls_function (func arg : Nat) (hf : func < 2 ^ 64) (ha : arg < 2 ^ 64) :
    ∃ d : Bytes, d.length = 40 ∧ ∀ (own a : Addr) (flags ptr pre : Nat), ptr > 0x20000000 → pre ∉ [31, 32, 33, 34] →
      ∃ s rs, run (bound own flags) [.arrive a d, .recv, .handle 1, .message 1, .finish 1 ptr pre] = .ok (s, rs) ∧
        .act (.call func arg) ∈ s.done := by
  refine ⟨payload func arg, payload_length func arg, fun own a flags ptr pre hp hpre => ?_⟩
  have hd : payload func arg ≠ [] := by
    intro h
    have := payload_length func arg
    rw [h] at this
    simp at this
  obtain ⟨s, h1, h2, h3, h4, h5, h6, h7⟩ := first_handled own a flags (payload func arg) [] hd
  have ht : (payload func arg).take 49152 = payload func arg := List.take_of_length_le (by rw [payload_length]; omega)
  have hu := unwind1_payload func arg ptr pre
    (List.replicate (alignUp2 ((payload func arg).length + 1) - (payload func arg).length) 0) (by omega) (by omega) hp hpre
  have e5 : release 1 ptr pre ((first own flags a (payload func arg) []).pk 1).message [.addr (.own a), .message, .packet] =
      .ok [.freeAddr 1, .act (.call func arg), .freeMessage 1, .freePacket 1] := by
    rw [first_message, ht]
    simp only [release, hu, Res.ok_bind, List.map_cons, List.map_nil, List.cons_append, List.nil_append]
    simp
  have hr : release 1 ptr pre (s.pk 1).message (s.pk 1).garbage.reverse =
      .ok [.freeAddr 1, .act (.call func arg), .freeMessage 1, .freePacket 1] := by
    rw [h5, h6]; exact e5
  have h2' : freesTwice (s.pk 1) = false := by
    unfold freesTwice
    rw [h1, h5]
    simp [List.count_cons]
  have e4 := finish_step s 1 ptr pre h2' hr
  refine ⟨_, _, run_cons rfl (h7 _ _ _ (run_cons e4 rfl)), ?_⟩
  show _ ∈ s.done ++ _
  simp

/-- C97 is false of the memory of a message that the handler does not ask for: it is not freed with the packet. -/
theorem udp_unread_message_leaks (own a : Addr) (flags : Nat) (d : Bytes) (hd : d ≠ []) (ptr pre : Nat) :
    ∃ s, run (bound own flags) [.arrive a d, .recv, .handle 1, .finish 1 ptr pre] = .ok (s, [.unit, .packet 1, .unit, .unit]) ∧
      s.done = [.freePacket 1] ∧ (s.pk 1).live = false ∧ (s.pk 1).msgLive = true := by
  obtain ⟨s1, e1⟩ : ∃ s1, s1 = (first own flags a d []).setPk 1
    { (first own flags a d []).pk 1 with garbage := ((first own flags a d []).pk 1).garbage ++ [.packet] } := ⟨_, rfl⟩
  have h1 : step (first own flags a d []) (.handle 1) = .ok (s1, .unit) := by rw [e1]; rfl
  have h2 := finish_step s1 1 ptr pre (r := [.freePacket 1]) (by rw [e1]; rfl) (by rw [e1]; rfl)
  refine ⟨_, run_cons rfl (run_cons (step_first own flags a d [] hd) (run_cons h1 (run_cons h2 rfl))), ?_⟩
  rw [e1]
  exact ⟨rfl, rfl, rfl⟩

/-! ### Destinations -/

/-- The destination was set to `a` and is what the socket's packet points to. -/
structure Dest (s : St) (a : Addr) : Prop where
  sock : s.sockaddr = a
  wait : s.wait = none
  ptr : (s.pk s.target).addr = .sock

theorem Dest.set {s : St} {a : Addr} (h : Dest s a) (q : Nat) (x : Packet) (h1 : x.addr = (s.pk q).addr) :
    Dest (s.setPk q x) a := by
  refine ⟨h.sock, h.wait, ?_⟩
  rw [setPk_target]
  by_cases hq : s.target = q
  · rw [← hq, setPk_same, h1, ← hq]; exact h.ptr
  · rw [setPk_other _ _ _ _ hq]; exact h.ptr

theorem Dest.kernel {s s' : St} {a b : Addr} {n : Nat} {d : Bytes} {r : Ret} (h : Dest s a)
    (e : sendtoKernel s b n d = (s', r)) : Dest s' a := by
  unfold sendtoKernel at e
  by_cases hc : n < (if b.v6 then 24 else 16)
  · rw [if_pos hc] at e
    simp only [Prod.mk.injEq] at e
    obtain ⟨e, e'⟩ := e; subst e e'
    exact h
  · rw [if_neg hc] at e
    simp only [Prod.mk.injEq] at e
    obtain ⟨e, e'⟩ := e; subst e e'
    exact ⟨h.sock, h.wait, h.ptr⟩

theorem Dest.step {s s' : St} {a : Addr} {o : Op} {r : Ret} (h : Dest s a) (hq : Quiet o) (e : step s o = .ok (s', r)) :
    Dest s' a := by
  cases o with
  | arrive b d =>
    simp only [Udp.step, Res.ok.injEq, Prod.mk.injEq] at e
    obtain ⟨e, _⟩ := e; subst e
    exact ⟨h.sock, h.wait, h.ptr⟩
  | recv => exact absurd rfl hq.1
  | wake =>
    simp only [Udp.step, h.wait, Res.ok.injEq, Prod.mk.injEq] at e
    obtain ⟨e, _⟩ := e; subst e
    exact h
  | fail =>
    simp only [Udp.step, h.wait, Res.ok.injEq, Prod.mk.injEq] at e
    obtain ⟨e, _⟩ := e; subst e
    exact h
  | handle q =>
    simp only [Udp.step, Res.ok.injEq, Prod.mk.injEq] at e
    obtain ⟨e, _⟩ := e; subst e
    exact h.set _ _ rfl
  | message q =>
    simp only [Udp.step] at e
    split at e
    · split at e
      · simp only [Res.ok.injEq, Prod.mk.injEq] at e
        obtain ⟨e, _⟩ := e; subst e
        exact h.set _ _ rfl
      · simp only [Res.ok.injEq, Prod.mk.injEq] at e
        obtain ⟨e, _⟩ := e; subst e
        exact h
    · cases e
  | ip q =>
    simp only [Udp.step] at e
    split at e
    · split at e
      · simp only [Res.ok.injEq, Prod.mk.injEq] at e
        obtain ⟨e, _⟩ := e; subst e
        exact h
      · obtain ⟨b, hb, e⟩ := Res.bind_eq_ok.1 e
        simp only [Res.ok.injEq, Prod.mk.injEq] at e
        obtain ⟨e, _⟩ := e; subst e
        exact h.set _ _ rfl
    · cases e
  | length q =>
    simp only [Udp.step] at e
    split at e
    · simp only [Res.ok.injEq, Prod.mk.injEq] at e
      obtain ⟨e, _⟩ := e; subst e
      exact h
    · cases e
  | send q d =>
    simp only [Udp.step] at e
    split at e
    · exact h.kernel (Res.ok.inj e)
    · cases e
  | finish q ptr pre =>
    simp only [Udp.step] at e
    split at e
    · cases e
    · obtain ⟨x, _, e⟩ := Res.bind_eq_ok.1 e
      simp only [Res.ok.injEq, Prod.mk.injEq] at e
      obtain ⟨e, _⟩ := e; subst e
      have := h.set q { s.pk q with
        live := (s.pk q).live && !((s.pk q).garbage.contains .packet)
        msgLive := (s.pk q).msgLive && !((s.pk q).garbage.contains .message)
        garbage := [] } rfl
      exact ⟨this.sock, this.wait, this.ptr⟩
  | dest b f => exact absurd rfl (hq.2 b f)
  | sendto d =>
    simp only [Udp.step] at e
    split at e
    · obtain ⟨x, _, e⟩ := Res.bind_eq_ok.1 e
      split at e
      · exact h.kernel (Res.ok.inj e)
      · split at e <;>
        · simp only [Res.ok.injEq, Prod.mk.injEq] at e
          obtain ⟨e, _⟩ := e; subst e
          exact ⟨h.sock, h.wait, h.ptr⟩
    · cases e

theorem Dest.run {s s' : St} {a : Addr} {ops : List Op} {rs : List Ret} (h : Dest s a)
    (hq : ∀ o ∈ ops, Quiet o) (e : run s ops = .ok (s', rs)) : Dest s' a := by
  induction ops generalizing s rs with
  | nil =>
    simp only [Udp.run, Res.ok.injEq, Prod.mk.injEq] at e
    obtain ⟨e, e'⟩ := e; subst e e'
    exact h
  | cons o ops ih =>
    rw [Udp.run] at e
    obtain ⟨⟨s1, r⟩, e1, e⟩ := Res.bind_eq_ok.1 e
    obtain ⟨⟨s2, rs'⟩, e2, e⟩ := Res.bind_eq_ok.1 e
    simp only [Res.ok.injEq, Prod.mk.injEq] at e
    obtain ⟨e, e'⟩ := e; subst e e'
    exact ih (h.step (hq o (by simp)) e1) (fun x hx => hq x (by simp [hx])) e2

theorem dest_after {s s1 s2 : St} {a : Addr} {f : Nat} {r : Ret} {ops : List Op} {rs : List Ret} (hw : s.wait = none)
    (hd : step s (.dest a f) = .ok (s1, r)) (hq : ∀ o ∈ ops, Quiet o) (e : run s1 ops = .ok (s2, rs)) : Dest s2 a := by
  have h1 : Dest s1 a := by
    simp only [step] at hd
    split at hd
    · simp only [Res.ok.injEq, Prod.mk.injEq] at hd
      obtain ⟨hd, _⟩ := hd; subst hd
      refine ⟨rfl, hw, ?_⟩
      show ((s.setPk s.target _).pk s.target).addr = _
      rw [setPk_same]
    · cases hd
  exact h1.run hq e

/-- C98: after `udp_to(fd, a)` with an IPv4 address, and until something is received or another destination set, what
`async_sendto` sends goes to `a`, whole. -/
theorem udp_sendto_destination_partial {s s1 s2 : St} {a : Addr} {f : Nat} {r : Ret} {ops : List Op} {rs : List Ret}
    (h4 : a.v6 = false) (hw : s.wait = none) (hd : step s (.dest a f) = .ok (s1, r)) (hq : ∀ o ∈ ops, Quiet o)
    (e : run s1 ops = .ok (s2, rs)) (x : Bytes) :
    ∀ s3 r, step s2 (.sendto x) = .ok (s3, r) → s3.out = s2.out ++ [(a, x)] ∧ r = .num x.length := by
  intro s3 r hs
  have h2 := dest_after hw hd hq e
  simp only [step] at hs
  split at hs
  · simp only [deref, h2.ptr, Res.ok_bind, h2.sock, sendtoKernel, h4, Res.ok.injEq] at hs
    rw [if_neg (by simp)] at hs
    simp only [Prod.mk.injEq] at hs
    obtain ⟨e1, e2⟩ := hs
    subst e1 e2
    exact ⟨rfl, rfl⟩
  · cases hs

/-- C98 is false for IPv6: the kernel is given 16 bytes of the address and refuses; nothing is sent. -/
theorem udp_sendto_v6_fails {s s1 s2 : St} {a : Addr} {f : Nat} {r : Ret} {ops : List Op} {rs : List Ret}
    (h6 : a.v6 = true) (hw : s.wait = none) (hd : step s (.dest a f) = .ok (s1, r)) (hq : ∀ o ∈ ops, Quiet o)
    (e : run s1 ops = .ok (s2, rs)) (x : Bytes) :
    ∀ s3 r, step s2 (.sendto x) = .ok (s3, r) → s3 = s2 ∧ r = .num (-1) := by
  intro s3 r hs
  have h2 := dest_after hw hd hq e
  simp only [step] at hs
  split at hs
  · simp only [deref, h2.ptr, Res.ok_bind, h2.sock, sendtoKernel, h6, Res.ok.injEq] at hs
    rw [if_pos (by simp)] at hs
    simp only [Prod.mk.injEq] at hs
    exact ⟨hs.1.symm, hs.2.symm⟩
  · cases hs

/-- C98 is false after a receive: what is sent then goes to the sender of the datagram received last, not to the destination
that was set. -/
theorem udp_sendto_after_receive (own a b : Addr) (flags f : Nat) (d x : Bytes) (hd : d ≠ []) (h4 : b.v6 = false) :
    ∃ s, run (bound own flags) [.dest a f, .arrive b d, .recv, .sendto x] =
      .ok (s, [.unit, .unit, .packet 1, .num x.length]) ∧ s.out = [(b, x)] := by
  obtain ⟨s2, e2⟩ : ∃ s2, s2 = { ({ (bound own flags).setPk 0 { packet0 f with addr := .sock } with sockaddr := a } : St) with
    inq := [(b, d)] } := ⟨_, rfl⟩
  have h3 := step_recv s2 b d [] (by rw [e2]; rfl) (by rw [e2]; rfl) (by rw [e2]) hd
  obtain ⟨s3, e3⟩ : ∃ s3, s3 = afterRecv (s2.setPk s2.target { s2.pk s2.target with addr := .sock }) s2.target b d [] :=
    ⟨_, rfl⟩
  rw [← e3] at h3
  have h1 : step (bound own flags) (.dest a f) =
      .ok ({ (bound own flags).setPk 0 { packet0 f with addr := .sock } with sockaddr := a }, .unit) := rfl
  have h2 : step { (bound own flags).setPk 0 { packet0 f with addr := .sock } with sockaddr := a } (.arrive b d) =
      .ok (s2, .unit) := by rw [e2]; rfl
  have hn : s2.n = 1 := by rw [e2]; rfl
  rw [hn] at h3
  have h4' : step s3 (.sendto x) = .ok ({ s3 with out := [(b, x)] }, .num x.length) := by
    have ht : s3.target = 1 := by rw [e3]; exact hn
    have hp : (s3.pk 1).live = true ∧ (s3.pk 1).msgLive = true ∧ (s3.pk 1).addr = .own b := by
      rw [e3, e2]
      exact ⟨rfl, rfl, rfl⟩
    have ho : s3.out = [] := by rw [e3, e2]; rfl
    simp only [step, ht, hp.1, if_true, deref, hp.2.1, hp.2.2, Res.ok_bind, sendtoKernel, h4, ho]
    rfl
  exact ⟨_, run_cons h1 (run_cons h2 (run_cons h3 (run_cons h4' rfl))), rfl⟩

/-- C98: on a connected socket nothing needs to be set; what is sent goes to the peer.  On a bound one it fails. -/
theorem udp_sendto_without_destination (own peer : Addr) (flags : Nat) (x : Bytes) :
    (∃ s, run (connected peer) [.sendto x] = .ok (s, [.num x.length]) ∧ s.out = [(peer, x)]) ∧
    ∃ s, run (bound own flags) [.sendto x] = .ok (s, [.num (-1)]) ∧ s.out = [] :=
  ⟨⟨{ connected peer with out := [(peer, x)] }, rfl, rfl⟩, ⟨bound own flags, rfl, rfl⟩⟩

/-! ## Concrete cases -/

def alice : Addr := ⟨false, 1, 7777⟩
def bob : Addr := ⟨false, 2, 8888⟩
def server : Addr := ⟨false, 9, 9999⟩

/-- Two datagrams, one answered in time, no task ending. -/
example : (run (bound server 0) [.recv, .arrive alice [104, 105], .wake, .handle 1, .message 1, .ip 1, .send 1 [111, 107],
      .arrive bob [1, 2, 3], .recv, .length 2]).bind (fun x => .ok (x.2, x.1.out)) =
    .ok ([.waits, .unit, .packet 1, .unit, .bytes [104, 105, 0, 0], .addr (some alice), .num 2, .unit, .packet 2, .num 3],
      [(alice, [111, 107])]) := by decide +kernel
example : Fresh (bound server 0) := .inl ⟨server, 0, rfl⟩
example : ∀ x ∈ arrivals [.recv, .arrive alice [104, 105], .wake], x.2 ≠ [] ∧ x.2.length ≤ 49152 := by decide
example : LooksPlain ⟨0x30000000, 0, ((first server 0 alice [104, 105] []).pk 1).message⟩ :=
  ⟨by norm_num, by decide, 104, 105, 0, 0, [], by decide +kernel, by decide⟩
example : Quiet (.send 1 [1]) := ⟨by simp, by simp⟩
example : run (bound server 0) [.arrive alice [104, 105], .recv, .handle 1, .finish 1 0x30000000 0, .arrive bob [1, 2], .recv] = .ub :=
  by rfl

end Verif.Udp
