import Verif.Kq.Lemmas

/-! # Properties of the kqueue backend -/

namespace Verif.Kq

open Verif.Fd (READ WRITE CLOSED RW ADD DEL)

/-- Claim C64: in every history that keeps the rules of the interface, whatever was changed between two polls and however
the changes are batched, the kernel watches a registered descriptor for reading exactly if READ is asked for, and for writing
exactly if WRITE is asked for; a descriptor that was not registered since it was opened is not watched.  Partial: for WRITE
only if READ is not asked for as well (see `read_write_never_watched_for_writing`). -/
theorem kernel_follows_interest_partial (maxFd : Nat) (hm : maxFd ≤ 2 ^ 23) (cbs : Cbs) (hs : List H) (a : AS)
    (h : specRun maxFd cbs AS.init hs = some a) :
    ∃ s, run maxFd cbs St.init (hs ++ [.poll []]) = some s ∧
      (∀ fd r, a.reg fd = some r → (s.k fd .read = some true ↔ r.rw.getLsbD 0 = true) ∧
        (r.rw.getLsbD 0 = false → (s.k fd .write = some true ↔ r.rw.getLsbD 1 = true))) ∧
      ∀ fd f, a.used fd = false → s.k fd f = none := by
  obtain ⟨s, e, L, i⟩ := run_inv hm (init_inv maxFd) h
  obtain ⟨s1, e1, h1⟩ := pollBegin_core hm i
  refine ⟨s1, ?_, fun fd r hr => ⟨(told h1 hr).1, fun h0 => (told h1 hr).2.trans ?_⟩, fun fd f hu => ?_⟩
  · rw [run_append, e]
    simp only [Option.bind_some, run, step, poll, e1, dispatchAll]
  · revert h0
    generalize r.rw = v
    revert v
    decide
  · rw [h1.fresh fd hu]

/-- Against C64: a descriptor registered for both READ and WRITE is never watched for writing, since the two filter numbers
are combined with a bitwise or. -/
theorem read_write_never_watched_for_writing (maxFd : Nat) (hm : maxFd ≤ 2 ^ 23) (cbs : Cbs) (hs : List H) (a : AS)
    (h : specRun maxFd cbs AS.init hs = some a) (fd : Nat) (r : Reg) (hr : a.reg fd = some r) (hrw : r.rw = 3) :
    ∃ s, run maxFd cbs St.init (hs ++ [.poll []]) = some s ∧ s.k fd .write ≠ some true := by
  obtain ⟨s, e, L, i⟩ := run_inv hm (init_inv maxFd) h
  obtain ⟨s1, e1, h1⟩ := pollBegin_core hm i
  refine ⟨s1, ?_, fun hw => ?_⟩
  · rw [run_append, e]
    simp only [Option.bind_some, run, step, poll, e1, dispatchAll]
  · have := (told h1 hr).2.1 hw
    rw [hrw] at this
    exact absurd this (by decide)

/-- Against C64: when a descriptor that is watched for reading is deleted after a poll, the kernel keeps watching it; if it is
then added again for WRITE only, without closing it in between, the kernel watches it for reading still, and a report of input
is handed to the callback. -/
theorem deleted_stays_watched (maxFd : Nat) (hm : maxFd ≤ 2 ^ 23) (cbs : Cbs) (hs : List H) (a : AS)
    (h : specRun maxFd cbs AS.init hs = some a) (fd : Nat) (r : Reg) (hr : a.reg fd = some r) (hrd : r.rw.getLsbD 0 = true)
    (cb : Nat) (hcb : ∀ n c, cbs n c = []) :
    ∃ s s', run maxFd cbs St.init (hs ++ [.poll [], .op (.del fd)]) = some s ∧ (s.tgt fd).reg = false ∧
      s.k fd .read = some true ∧
      run maxFd cbs s [.op (.add fd WRITE cb), .poll [⟨fd, .read, false⟩]] = some s' ∧ s'.k fd .read = some true ∧
      s'.log = s.log ++ [⟨fd, READ, cb⟩] := by
  obtain ⟨s, e, L, i⟩ := run_inv hm (init_inv maxFd) h
  obtain ⟨s1, e1, h1⟩ := pollBegin_core hm i
  have hb := h1.off fd (by simp) (by rw [hr]; rfl)
  have hfd := h1.used fd (by rw [hr]; rfl)
  have hch : s1.changed = -1 := h1.chain
  have hk := (told h1 hr).1.2 hrd
  have hnat : (BitVec.ofNat 32 fd).toNat = fd := by
    rw [BitVec.toNat_ofNat, Nat.mod_eq_of_lt (by omega)]
  have hnot : BitVec.ofNat 32 fd ≠ -1 := fun e => by
    have := congrArg BitVec.toNat e
    rw [hnat] at this
    have h3 : (-1 : BitVec 32).toNat = 4294967295 := by decide
    omega
  refine ⟨setTgt s1 fd { s1.tgt fd with reg := false },
    { tgt := Function.update s1.tgt fd ⟨true, 2, -1, cb⟩, changed := -1,
      k := Function.update s1.k fd (Function.update (s1.k fd) .write (some true)), opn := s1.opn,
      log := s1.log ++ [⟨fd, READ, cb⟩] }, ?_, by simp [setTgt], hk, ?_, ?_, rfl⟩
  · rw [run_append, e]
    simp only [Option.bind_some, run, step, poll, e1, dispatchAll, runOp, if_pos hfd.2.2, (h1.reg fd r hr).1, if_true,
      updateInternal, if_neg (show ¬ DEL &&& ADD ≠ 0 by decide), updateRest_del, hb, Option.map_some]
  · have hw1 : (WRITE ||| ADD) ≠ DEL := by decide
    have hw2 : (WRITE ||| ADD) &&& DEL = 0 := by decide
    have hw3 : ¬ (WRITE ||| ADD) &&& RW = BitVec.signExtend 32 (0 : BitVec 8) := by decide
    have hw4 : (WRITE ||| ADD) &&& ADD ≠ 0 := by decide
    have hw5 : BitVec.setWidth 8 ((WRITE ||| ADD) &&& RW) = 2 := by decide
    have hk1 : kevent1 s1.opn s1.k ⟨fd, filterOf (BitVec.signExtend 32 (2 : BitVec 8)), true⟩ =
        some (Function.update s1.k fd (Function.update (s1.k fd) .write (some true))) := by
      unfold kevent1
      rw [show filt (filterOf (BitVec.signExtend 32 (2 : BitVec 8))) = some .write by decide]
      simp only [h1.opn, hfd.1, if_true]
    simp only [run, step, runOp, if_pos hfd.2.2, updateInternal, setTgt, Function.update_self, if_true, if_pos hw4,
      Function.update_idem, updateRest_ne _ _ _ hw1 hw2, if_neg hw3, Option.bind_some]
    simp only [enqueue, setTgt, Function.update_self, if_true, Function.update_idem, hch, hw5]
    have hp : ∀ s2 : St, s2 = St.mk (Function.update s1.tgt fd ⟨true, 2, build (-1) 0, cb⟩) (BitVec.ofNat 32 fd) s1.k
        s1.opn s1.log → pollBegin maxFd s2 = some (St.mk (Function.update s1.tgt fd ⟨true, 2, -1, cb⟩) (-1)
          (Function.update s1.k fd (Function.update (s1.k fd) .write (some true))) s1.opn s1.log) := by
      rintro s2 rfl
      unfold pollBegin applyLoop
      simp only [if_neg hnot, hnat, if_pos hfd.2.2, Function.update_self]
      unfold tell
      rw [if_pos (by rw [getOld_build]; decide), putBoth_eq (by simp)]
      have hch : changes fd (BitVec.signExtend 32 (2 : BitVec 8)) (getOld (build (-1) 0)) =
          [⟨fd, filterOf (BitVec.signExtend 32 (2 : BitVec 8)), true⟩] := by
        rw [getOld_build]
        rfl
      rw [hch]
      simp only [flushFull, List.nil_append, List.length_singleton, Option.bind_some, setTgt, Function.update_self,
        Function.update_idem, getNext_build (Or.inl rfl : Small (-1))]
      rw [if_neg (by norm_num)]
      simp only [Option.bind_some, applyLoop, if_true, Option.map_some, keventSome, hk1, Option.getD_some,
        Function.update_self, Function.update_idem, getNext_build (Or.inl rfl : Small (-1))]
    simp only [poll, hp _ rfl, Option.bind_some, dispatchAll, dispatch, Function.update_self, if_true, hcb, runOps, revents,
      Bool.false_eq_true, if_false]
  · simpa using hk

/-- `kqueue_add_watch`, src/os_unix.c:1108-1130: a directory, opened as `fd`, is registered with `EVENTS_PATHWATCH`.  The callback is
the number `cb`; what is noted for the report of changes is left out. -/
def addWatch (maxFd : Nat) (s : St) (fd cb : Nat) : Option St :=
  if fd < maxFd then updateInternal maxFd (setTgt s fd ⟨true, 0, (s.tgt fd).backend, cb⟩) fd (0x8000 ||| ADD) else some s

/-- Against C64: a directory that is to be watched within the event loop is never made known to the kernel, because
`EVENTS_PATHWATCH` counts as no event: after every history, whatever descriptor it has, nothing changes in the kernel at the next poll. -/
theorem directory_never_watched (maxFd : Nat) (hm : maxFd ≤ 2 ^ 23) (cbs : Cbs) (hs : List H) (a : AS)
    (h : specRun maxFd cbs AS.init hs = some a) (fd cb : Nat) :
    ∃ s s1 s2, run maxFd cbs St.init (hs ++ [.poll []]) = some s ∧ addWatch maxFd s fd cb = some s1 ∧
      run maxFd cbs s1 [.poll []] = some s2 ∧ s2.k = s.k := by
  obtain ⟨s, e, L, i⟩ := run_inv hm (init_inv maxFd) h
  obtain ⟨s1, e1, h1⟩ := pollBegin_core hm i
  have hch : s1.changed = -1 := h1.chain
  have hw : ∃ s2, addWatch maxFd s1 fd cb = some s2 ∧ s2.changed = -1 ∧ s2.k = s1.k := by
    unfold addWatch
    split
    · have w1 : (0x8000 ||| ADD : BitVec 32) &&& ADD ≠ 0 := by decide
      have w2 : (0x8000 ||| ADD : BitVec 32) ≠ DEL := by decide
      have w3 : (0x8000 ||| ADD : BitVec 32) &&& RW = BitVec.signExtend 32 (0 : BitVec 8) := by decide
      unfold updateInternal
      simp only [setTgt, Function.update_self, if_true, if_pos w1]
      unfold updateRest
      simp only [Function.update_self, if_neg w2, if_pos w3]
      exact ⟨_, rfl, hch, rfl⟩
    · exact ⟨s1, rfl, hch, rfl⟩
  obtain ⟨s2, e2, c2, k2⟩ := hw
  refine ⟨s1, s2, s2, ?_, e2, ?_, k2⟩
  · rw [run_append, e]
    simp only [Option.bind_some, run, step, poll, e1, dispatchAll]
  · simp only [run, step, poll, pollBegin]
    rw [applyLoop, if_pos c2]
    rfl

theorem enqueue_add (s : St) (fd cb : Nat) :
    updateRest maxFd (setTgt s fd ⟨true, 0, -1, cb⟩) fd (READ ||| ADD) =
      some ⟨Function.update s.tgt fd ⟨true, 1, build s.changed 0, cb⟩, BitVec.ofNat 32 fd, s.k, s.opn, s.log⟩ := by
  rw [updateRest_ne _ _ _ (by decide) (by decide), if_neg (by simp only [setTgt, Function.update_self]; decide)]
  simp only [enqueue, setTgt, Function.update_self, if_true, Function.update_idem]
  rfl

theorem add_read {maxFd : Nat} (s : St) {fd : Nat} (cb : Nat) (hfd : fd < maxFd) :
    runOp maxFd s (.add fd READ cb) =
      some ⟨Function.update s.tgt fd ⟨true, 1, build s.changed 0, cb⟩, BitVec.ofNat 32 fd, s.k, s.opn, s.log⟩ := by
  have := enqueue_add (maxFd := maxFd) s fd cb
  simp only [setTgt] at this
  simp only [runOp, if_pos hfd, updateInternal, setTgt, Function.update_self, if_true,
    if_pos (show (READ ||| ADD) &&& ADD ≠ 0 by decide), Function.update_idem]
  exact this

/-- A descriptor that is neither on the list nor free for it. -/
def Deaf (x : Nat) (s : St) : Prop :=
  s.changed = -1 ∧ (s.tgt x).reg = true ∧ (s.tgt x).backend ≠ -1 ∧ ∀ f, s.k x f = none

theorem deaf_step {maxFd : Nat} {cbs : Cbs} {x : Nat} (hx : x < maxFd) {s : St} (h : Deaf x s) {e : H}
    (he : e = .poll [] ∨ ∃ v, v &&& 3 = v ∧ e = .op (.setEvent x v)) : ∃ s', step maxFd cbs s e = some s' ∧ Deaf x s' := by
  obtain ⟨h1, h2, h3, h4⟩ := h
  rcases he with rfl | ⟨v, hv, rfl⟩
  · refine ⟨s, ?_, h1, h2, h3, h4⟩
    simp only [step, poll, pollBegin, applyLoop, if_pos h1, Option.map_some, keventSome, Option.bind_some, dispatchAll]
  · have hev := small_event hv
    have e1 : v &&& ADD = 0 := by rcases hev with rfl | rfl | rfl | rfl <;> decide
    have e2 : v ≠ DEL := by rcases hev with rfl | rfl | rfl | rfl <;> decide
    have e3 : v &&& DEL = 0 := by rcases hev with rfl | rfl | rfl | rfl <;> decide
    have e4 : v &&& RW = v := hv
    simp only [step, runOp, if_pos hx]
    by_cases heq : (s.tgt x).events.signExtend 32 = v
    · rw [if_neg (not_not.2 heq)]
      exact ⟨s, rfl, h1, h2, h3, h4⟩
    · rw [if_pos heq]
      unfold updateInternal
      rw [if_pos h2, if_neg (not_not.2 e1), updateRest_ne _ _ _ e2 e3, e4, if_neg (fun e => heq e.symm)]
      refine ⟨_, rfl, ?_⟩
      unfold enqueue
      rw [if_neg h3]
      refine ⟨h1, by simpa [setTgt] using h2, by simpa [setTgt] using h3, h4⟩

theorem deaf_run {maxFd : Nat} {cbs : Cbs} {x : Nat} (hx : x < maxFd) : ∀ {hs : List H} {s : St}, Deaf x s →
    (∀ h ∈ hs, h = .poll [] ∨ ∃ e, e &&& 3 = e ∧ h = .op (.setEvent x e)) → ∃ s', run maxFd cbs s hs = some s' ∧ Deaf x s'
  | [], s, h, _ => ⟨s, rfl, h⟩
  | e :: es, s, h, hl => by
    obtain ⟨s1, e1, h1⟩ := deaf_step (cbs := cbs) hx h (hl e (by simp))
    obtain ⟨s2, e2, h2⟩ := deaf_run (cbs := cbs) (hs := es) hx h1 fun h hh => hl h (by simp [hh])
    exact ⟨s2, by simp only [run, e1, Option.bind_some]; exact e2, h2⟩

/-- Against C64 (and unlike the epoll backend, which accepts it): when a descriptor `y` whose registration was not yet told to
the kernel is added again, the pending registration of `x` before it is lost, and no later change of the events of `x`
repairs it. -/
theorem add_again_loses_others (maxFd : Nat) (hm : maxFd ≤ 2 ^ 23) (cbs : Cbs) (x y cb cb' cb'' : Nat) (hx : x < maxFd)
    (hy : y < maxFd) (hxy : x ≠ y) (later : List H)
    (hl : ∀ h ∈ later, h = .poll [] ∨ ∃ e, e &&& 3 = e ∧ h = .op (.setEvent x e)) :
    ∃ s, run maxFd cbs St.init ([.op (.open_ x), .op (.open_ y), .op (.add x READ cb), .op (.add y READ cb'),
        .op (.add y READ cb''), .poll []] ++ later) = some s ∧ (s.tgt x).reg = true ∧ ∀ f, s.k x f = none := by
  have hnat : (BitVec.ofNat 32 y).toNat = y := by
    rw [BitVec.toNat_ofNat, Nat.mod_eq_of_lt (by omega)]
  have hnot : BitVec.ofNat 32 y ≠ -1 := fun e => by
    have := congrArg BitVec.toNat e
    rw [hnat] at this
    have h3 : (-1 : BitVec 32).toNat = 4294967295 := by decide
    omega
  have hsm : Small (BitVec.ofNat 32 y) := Or.inr (by omega)
  have hopn : Function.update (Function.update (fun _ => false) x true) y true y = true := by simp
  obtain ⟨opn, ho⟩ : ∃ opn : Nat → Bool, opn = Function.update (Function.update (fun _ => false) x true) y true := ⟨_, rfl⟩
  rw [← ho] at hopn
  obtain ⟨tx, htx⟩ : ∃ tx : Tgt, tx = ⟨true, 1, build (-1) 0, cb⟩ := ⟨_, rfl⟩
  obtain ⟨t0, ht0⟩ : ∃ t0 : Nat → Tgt, t0 = Function.update (fun _ => ⟨false, 0, 0, 0⟩) x tx := ⟨_, rfl⟩
  have hrun : run maxFd cbs St.init [.op (.open_ x), .op (.open_ y), .op (.add x READ cb), .op (.add y READ cb'),
      .op (.add y READ cb'')] = some ⟨Function.update t0 y ⟨true, 1, build (BitVec.ofNat 32 y) 0, cb''⟩, BitVec.ofNat 32 y,
        fun _ _ => none, opn, []⟩ := by
    simp only [run, step, Option.bind_some, add_read _ _ hx, add_read _ _ hy, Function.update_idem]
    simp only [runOp, Option.bind_some, St.init, ho, ht0, htx, add_read _ _ hx, add_read _ _ hy, Function.update_idem]
  have hpoll : step maxFd cbs ⟨Function.update t0 y ⟨true, 1, build (BitVec.ofNat 32 y) 0, cb''⟩, BitVec.ofNat 32 y,
        fun _ _ => none, opn, []⟩ (.poll []) = some ⟨Function.update t0 y ⟨true, 1, -1, cb''⟩, -1,
          Function.update (fun _ _ => none) y (Function.update (fun _ => none) .read (some true)), opn, []⟩ := by
    have hone : (BitVec.signExtend 32 (1 : BitVec 8)) = 1 := by decide
    have hturn : ∀ (n : Nat) (t : Nat → Tgt) (b : BitVec 64) (cl cl' : List Change), cl.length ≤ 254 →
        cl ++ changes y 1 (getOld b) = cl' → (cl').length < 255 → getOld b ≠ 1 →
        applyLoop maxFd (n + 1) ⟨Function.update t y ⟨true, 1, b, cb''⟩, BitVec.ofNat 32 y, fun _ _ => none, opn, []⟩ cl =
          applyLoop maxFd n ⟨Function.update t y ⟨true, 1, -1, cb''⟩, getNext b, fun _ _ => none, opn, []⟩ cl' := by
      intro n t b cl cl' hl hcl hl' hb
      rw [applyLoop]
      simp only [if_neg hnot, hnat, if_pos hy, Function.update_self, hone]
      unfold tell
      rw [if_pos (Ne.symm hb), putBoth_eq hl, Option.bind_some, flushFull, hcl, if_neg (by omega)]
      simp only [Option.bind_some, setTgt, Function.update_self, Function.update_idem]
    have hf1 : filt (filterOf 1) = some .read := by decide
    have hf2 : filt (filterOf 255) = some .read := by decide
    simp only [step, poll, pollBegin]
    rw [hturn (maxFd + 1) t0 _ [] [⟨y, filterOf 1, true⟩] (by simp) (by rw [getOld_build]; rfl) (by simp)
      (by rw [getOld_build]; decide), getNext_build hsm,
      hturn maxFd t0 _ _ [⟨y, filterOf 1, true⟩, ⟨y, filterOf 255, false⟩, ⟨y, filterOf 1, true⟩] (by simp) rfl (by simp)
      (by decide), show getNext (-1) = -1 by decide]
    obtain ⟨m, rfl⟩ : ∃ m, maxFd = m + 1 := ⟨maxFd - 1, by omega⟩
    rw [applyLoop, if_pos rfl]
    simp only [Option.map_some, keventSome, kevent1, hf1, hf2, hopn, if_true, Bool.false_eq_true, if_false, Option.getD_some,
      Function.update_self, Option.isSome_some, Function.update_idem, Option.bind_some, dispatchAll]
  obtain ⟨s', e', h1, h2, h3, h4⟩ := deaf_run (maxFd := maxFd) (cbs := cbs) hx
    (s := ⟨Function.update t0 y ⟨true, 1, -1, cb''⟩, -1,
      Function.update (fun _ _ => none) y (Function.update (fun _ => none) .read (some true)), opn, []⟩)
    (by
      refine ⟨rfl, ?_, ?_, ?_⟩
      · simp [hxy, ht0, htx]
      · simp only [Function.update_of_ne hxy, ht0, Function.update_self, htx]
        exact build_ne _ _
      · intro f
        simp [hxy]) hl
  refine ⟨s', ?_, h2, h4⟩
  rw [show ∀ l : List H, [H.op (.open_ x), .op (.open_ y), .op (.add x READ cb), .op (.add y READ cb'),
        .op (.add y READ cb''), .poll []] ++ l = [.op (.open_ x), .op (.open_ y), .op (.add x READ cb), .op (.add y READ cb'),
        .op (.add y READ cb'')] ++ (.poll [] :: l) from fun l => rfl, run_append, hrun]
  simp only [Option.bind_some, run]
  rw [hpoll]
  exact e'

/-- Claim C65: a poll calls back exactly the descriptors registered at that moment, each with the event that the kernel
reported and the callback of its registration; what callbacks add, change or remove takes effect for the rest of the batch.
Partial: reports of end-of-file are excluded (see `eof_not_reported`). -/
theorem kq_dispatch_refines_spec_partial (maxFd : Nat) (hm : maxFd ≤ 2 ^ 23) (cbs : Cbs) (hs : List H) (a : AS)
    (h : specRun maxFd cbs AS.init hs = some a) :
    ∃ s, run maxFd cbs St.init hs = some s ∧ s.log = a.log ∧ ∀ fd, (s.tgt fd).reg = (a.reg fd).isSome := by
  obtain ⟨s, e, L, i⟩ := run_inv hm (init_inv maxFd) h
  refine ⟨s, e, i.log, fun fd => ?_⟩
  cases hr : a.reg fd with
  | none => exact i.unreg fd hr
  | some r => exact (i.reg fd r hr).1

/-- Claim C65: every callback of a poll is for an event that was asked for, provided the kernel reports only what it watches
and the callbacks of the batch do not touch the descriptor.  Partial: no end-of-file. -/
theorem called_for_interest_partial (maxFd : Nat) (hm : maxFd ≤ 2 ^ 23) (cbs : Cbs) (hs : List H) (batch : List Event)
    (a a' : AS) (h : specRun maxFd cbs AS.init hs = some a) (h' : specPoll maxFd cbs a batch = some a') :
    ∃ s s1 s' new, run maxFd cbs St.init hs = some s ∧ run maxFd cbs s [.poll []] = some s1 ∧
      run maxFd cbs s [.poll batch] = some s' ∧ s'.log = s.log ++ new ∧
      ((∀ e ∈ batch, s1.k e.fd e.f = some true) → ∀ c ∈ new, (∀ n c', ∀ o ∈ cbs n c', ¬ o.touches c.fd) →
        ∃ r, a.reg c.fd = some r ∧ c.cb = r.cb ∧
          ((c.revents = READ ∧ r.rw.getLsbD 0 = true) ∨ (c.revents = WRITE ∧ r.rw.getLsbD 1 = true))) := by
  obtain ⟨s, e, L, i⟩ := run_inv hm (init_inv maxFd) h
  obtain ⟨s1, e1, h1⟩ := pollBegin_core hm i
  obtain ⟨s', e', L', i'⟩ := dispatchAll_inv hm ⟨[], h1⟩ h'
  obtain ⟨new, hn, hc⟩ := specPoll_new h'
  refine ⟨s, s1, s', new, e, by simp only [run, step, poll, e1, dispatchAll, Option.bind_some],
    by simp only [run, step, poll, e1, e', Option.bind_some], by rw [i'.log, hn, i.log], fun hk c hcn hq => ?_⟩
  obtain ⟨ev, hev, h2, h3, r, hr, hcb⟩ := hc c hcn hq
  refine ⟨r, hr, hcb.symm, ?_⟩
  have hke := hk ev hev
  rw [h2] at hke
  have ht := told h1 hr
  cases hf : ev.f with
  | read =>
    rw [hf] at hke h3
    exact Or.inl ⟨h3.symm, ht.1.1 hke⟩
  | write =>
    rw [hf] at hke h3
    refine Or.inr ⟨h3.symm, ?_⟩
    rw [ht.2.1 hke]
    decide

/-- Against C65: with end-of-file, a callback waiting for WRITE is called with no event at all, and a report for reading looks
the same as without end-of-file. -/
theorem eof_not_reported (maxFd : Nat) (cbs : Cbs) (s : St) (fd : Nat) (hr : (s.tgt fd).reg = true)
    (hcb : ∀ n c, cbs n c = []) :
    (∃ s', dispatch maxFd cbs s ⟨fd, .write, true⟩ = some s' ∧ s'.log = s.log ++ [⟨fd, 0, (s.tgt fd).cb⟩]) ∧
      dispatch maxFd cbs s ⟨fd, .read, true⟩ = dispatch maxFd cbs s ⟨fd, .read, false⟩ := by
  constructor
  · refine ⟨{ s with log := s.log ++ [⟨fd, 0, (s.tgt fd).cb⟩] }, ?_, rfl⟩
    unfold dispatch
    simp only [hr, if_true, hcb, runOps]
    rfl
  · have : revents .read true = revents .read false := by decide
    unfold dispatch
    simp only [this]

/-- A history with changes of mind between polls, a deletion with a change pending, and callbacks that register others. -/
def exHist : List H :=
  [.op (.open_ 5), .op (.open_ 6), .op (.open_ 7), .op (.add 5 READ 50), .op (.add 6 RW 60), .op (.add 7 WRITE 70), .poll [],
   .op (.setEvent 6 WRITE), .op (.setEvent 5 0), .op (.setEvent 5 READ), .op (.setEvent 7 READ), .op (.del 7), .op (.close 7),
   .poll [⟨5, .read, false⟩, ⟨6, .write, false⟩, ⟨7, .read, false⟩]]

def exCbs : Cbs := fun n c => if n = 0 ∧ c.fd = 5 then [.setEvent 5 WRITE, .open_ 8, .add 8 READ 80] else []

/-- The history is allowed, and it leads to these registrations and callbacks. -/
example : (specRun 64 exCbs AS.init exHist).map (fun a => (a.log, [5, 6, 7, 8].map fun fd => (a.reg fd).map (·.rw))) =
    some ([⟨5, READ, 50⟩, ⟨6, WRITE, 60⟩], [some 2, some 2, none, some 1]) := by decide +kernel

example : ∃ a s, specRun 64 exCbs AS.init exHist = some a ∧ run 64 exCbs St.init (exHist ++ [.poll []]) = some s ∧
    s.k 5 .write = some true ∧ s.k 5 .read ≠ some true ∧ s.k 8 .read = some true ∧ s.k 7 .read = none := by
  obtain ⟨a, ha⟩ : ∃ a, specRun 64 exCbs AS.init exHist = some a :=
    Option.isSome_iff_exists.1 (by decide +kernel)
  have hm : (specRun 64 exCbs AS.init exHist).map (fun a => ([5, 8].map fun fd => (a.reg fd).map fun r => (r.rw, r.cb))) =
    some [some (2, 50), some (1, 80)] := by decide +kernel
  have hu : (specRun 64 exCbs AS.init exHist).map (fun a => a.used 7) = some false := by decide +kernel
  rw [ha] at hm hu
  simp only [Option.map_some, List.map_cons, List.map_nil, Option.some.injEq, List.cons.injEq, and_true] at hm hu
  obtain ⟨⟨⟨c5, w5⟩, h5, e5⟩, ⟨⟨c8, w8⟩, h8, e8⟩⟩ := hm.imp Option.map_eq_some_iff.1 Option.map_eq_some_iff.1
  obtain ⟨s, e, h1, h2⟩ := kernel_follows_interest_partial 64 (by norm_num) exCbs exHist a ha
  simp only [Prod.mk.injEq] at e5 e8
  obtain ⟨rfl, rfl⟩ := e5
  obtain ⟨rfl, rfl⟩ := e8
  refine ⟨a, s, ha, e, ?_, ?_, ?_, h2 7 .read hu⟩
  · exact ((h1 5 _ h5).2 (by decide)).2 (by decide)
  · rw [Ne, (h1 5 _ h5).1]
    decide
  · exact (h1 8 _ h8).1.2 (by decide)

/-- A descriptor registered for both directions; one registered for reading. -/
example : (specRun 64 (fun _ _ => []) AS.init [.op (.open_ 5), .op (.open_ 6), .op (.add 5 RW 50), .op (.add 6 READ 60)]).map
    (fun a => [5, 6].map fun fd => (a.reg fd).map (·.rw)) = some [some 3, some 1] := by decide +kernel

example : ∃ s, run 64 (fun _ _ => []) St.init ([.op (.open_ 5), .op (.open_ 6), .op (.add 5 READ 50), .op (.add 6 READ 60),
    .op (.add 6 READ 61), .poll []] ++ [.op (.setEvent 5 WRITE), .poll [], .op (.setEvent 5 READ), .poll []]) = some s ∧
    (s.tgt 5).reg = true ∧ ∀ f, s.k 5 f = none :=
  add_again_loses_others 64 (by norm_num) _ 5 6 50 60 61 (by norm_num) (by norm_num) (by norm_num) _ (by
    intro h hh
    simp only [List.mem_cons, List.not_mem_nil, or_false] at hh
    rcases hh with rfl | rfl | rfl | rfl
    · exact Or.inr ⟨WRITE, by decide, rfl⟩
    · exact Or.inl rfl
    · exact Or.inr ⟨READ, by decide, rfl⟩
    · exact Or.inl rfl)

/-- The kernel can report what `called_for_interest_partial` assumes. -/
example : (run 64 exCbs St.init (exHist.take 13 ++ [.poll []])).map (fun s => (s.k 5 .read, s.k 6 .write)) =
    some (some true, some true) := by decide +kernel

example : ((run 64 exCbs St.init (exHist.take 13)).map fun s => (s.tgt 6).reg) = some true := by decide +kernel

end Verif.Kq
