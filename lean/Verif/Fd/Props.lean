import Verif.Fd.Lemmas

/-!
# Properties of descriptor registration and dispatch (C34, C35) and of signal registration (C62)
-/

namespace Verif.Fd

/-- Claim C34: for every history of registrations, changes of interest, closes and polls, every batch of kernel events and
everything that callbacks do, the code makes exactly the calls of the specification: an event reaches the callback of the
registration in force at that moment, if it is with the polling loop and interested in anything; other events are dropped. -/
theorem dispatch_refines_spec (maxFd maxSig : Nat) (cbs : Cbs) (hs : List H) (a : AS)
    (h : specRun maxFd cbs AS.init hs = some a) :
    ∃ s, run maxFd maxSig cbs St.init hs = some s ∧ s.log = a.log ∧
      ∀ fd, (s.tgt fd).loopId = ((a.reg fd).map (·.loop)).getD 0 := by
  obtain ⟨s, e, i⟩ := run_inv (maxSig := maxSig) (init_inv maxFd) h
  refine ⟨s, e, i.log, fun fd => ?_⟩
  have ht := i.tgt fd
  cases hr : a.reg fd with
  | none => rw [hr] at ht; exact ht.1
  | some r => rw [hr] at ht; exact ht.2.1

/-- Claim C35: the count of a loop is the number of its registered descriptors plus the number of times that one of them was
added again without being deleted; so it is right as long as no registered descriptor is added. -/
theorem count_registered_partial (maxFd maxSig : Nat) (hmax : maxFd < 2 ^ 64) (cbs : Cbs) (hs : List H) (a : AS)
    (h : specRun maxFd cbs AS.init hs = some a) :
    ∃ s, run maxFd maxSig cbs St.init hs = some s ∧
      ∀ l, s.active l = BitVec.ofNat 64 (a.num maxFd l + a.extra l) ∧
        (a.extra l = 0 → (s.active l).toNat = a.num maxFd l) := by
  obtain ⟨s, e, i⟩ := run_inv (maxSig := maxSig) (init_inv maxFd) h
  refine ⟨s, e, fun l => ⟨i.count l, fun h0 => ?_⟩⟩
  have hle : a.num maxFd l ≤ maxFd := by
    unfold AS.num
    exact (List.length_filter_le _ _).trans (by simp)
  rw [i.count l, h0, BitVec.toNat_ofNat, Nat.add_zero, Nat.mod_eq_of_lt (by omega)]

/-- Claim C35: a descriptor out of range is rejected without effect. -/
theorem add_out_of_range (maxFd : Nat) (s : St) (l fd cb : Nat) (event : BitVec 32) (h : maxFd ≤ fd) :
    addFd maxFd s l fd event cb = some (-1, s) := by
  unfold addFd
  rw [if_neg (by omega)]

/-- Claim C35: deleting a descriptor that is not registered reports failure and changes nothing. -/
theorem del_unregistered (maxFd maxSig : Nat) (cbs : Cbs) (hs : List H) (a : AS) (h : specRun maxFd cbs AS.init hs = some a)
    (fd : Nat) (hfd : fd < maxFd) (hr : a.reg fd = none) :
    ∃ s, run maxFd maxSig cbs St.init hs = some s ∧ delFd maxFd s fd = some (-1, s) := by
  obtain ⟨s, e, i⟩ := run_inv (maxSig := maxSig) (init_inv maxFd) h
  refine ⟨s, e, ?_⟩
  have ht := i.tgt fd
  rw [hr] at ht
  unfold delFd delIo
  rw [if_pos hfd, if_neg (by rw [i.nosig]; simp), ht.2]

/-! A history that meets the hypotheses: descriptors 5 and 6 on loop 1; in one batch the callback of 5 deletes 6, whose
event in the same batch is dropped. -/
def demoCbs : Cbs := fun _ c => match c with
  | .io _ 5 _ _ => [.del 6]
  | _ => []
def demo : List H :=
  [.op (.open_ 5), .op (.open_ 6), .op (.add 1 5 1 100), .op (.add 1 6 3 200), .poll 1 [(5, 1), (6, 5)], .poll 1 [(6, 1)]]

example : (specRun 64 demoCbs AS.init demo).map (·.log) = some [.io 1 5 1 100] := by decide +kernel
example : (run 64 32 demoCbs St.init demo).map (·.log) = some [.io 1 5 1 100] := by decide +kernel
example : (run 64 32 demoCbs St.init demo).map (·.active 1) = some 1 := by decide +kernel

/-! ## No callback after deletion, for every history whatsoever -/

def Op.adds (fd : Nat) : Op → Prop
  | .add _ x _ _ => x = fd
  | _ => False

/-- The calls made for descriptor `fd`. -/
def ioCalls (fd : Nat) (log : List Call) : List Call :=
  log.filter fun c => match c with
    | .io _ x _ _ => x == fd
    | .sig _ _ => false

theorem update_tgt {s s' : St} {l fd x : Nat} {event : BitVec 32} (h : updateInternal s l x event = some s') :
    (s'.tgt fd).loopId = (s.tgt fd).loopId ∧ s'.log = s.log := by
  unfold updateInternal at h
  split at h
  · exact absurd h (by simp)
  · split at h
    · injection h with h; subst h; exact ⟨rfl, rfl⟩
    · obtain ⟨s1, h1, h2⟩ := Option.map_eq_some_iff.1 h
      have k : s1.tgt = s.tgt ∧ s1.log = s.log := by
        unfold kernelUpdate at h1
        split at h1
        · injection h1 with h1; subst h1; exact ⟨rfl, rfl⟩
        · split at h1
          · split at h1
            · injection h1 with h1; subst h1; exact ⟨rfl, rfl⟩
            · exact absurd h1 (by simp)
          · split at h1
            · injection h1 with h1; subst h1; exact ⟨rfl, rfl⟩
            · exact absurd h1 (by simp)
      subst h2
      refine ⟨?_, k.2⟩
      show (Function.update s1.tgt x _ fd).loopId = _
      by_cases hx : fd = x
      · subst hx; rw [Function.update_self, k.1]
      · rw [Function.update_of_ne hx, k.1]

theorem op_off {maxFd maxSig : Nat} {s s' : St} {o : Op} {fd : Nat} (hq : ¬ o.adds fd) (h0 : (s.tgt fd).loopId = 0)
    (h : runOp maxFd maxSig s o = some s') : (s'.tgt fd).loopId = 0 ∧ s'.log = s.log := by
  cases o with
  | add l x event cb =>
    have hx : fd ≠ x := fun e => hq e.symm
    simp only [runOp] at h
    obtain ⟨p, hp, rfl⟩ := Option.map_eq_some_iff.1 h
    unfold addFd at hp
    split at hp
    · obtain ⟨s1, h1, h2⟩ := Option.map_eq_some_iff.1 hp
      subst h2
      obtain ⟨k1, k2⟩ := update_tgt (fd := fd) h1
      refine ⟨?_, k2⟩
      show (s1.tgt fd).loopId = 0
      rw [k1]
      show (Function.update s.tgt x _ fd).loopId = 0
      rw [Function.update_of_ne hx]
      exact h0
    · injection hp with hp; subst hp; exact ⟨h0, rfl⟩
  | del x =>
    simp only [runOp] at h
    obtain ⟨p, hp, rfl⟩ := Option.map_eq_some_iff.1 h
    unfold delFd at hp
    split at hp
    · split at hp
      · unfold delSig at hp
        simp only at hp
        split at hp
        · exact absurd hp (by simp)
        · injection hp with hp
          subst hp
          refine ⟨?_, rfl⟩
          show (Function.update s.tgt x _ fd).loopId = 0
          by_cases hx : fd = x
          · subst hx; rw [Function.update_self]; exact h0
          · rw [Function.update_of_ne hx]; exact h0
      · unfold delIo at hp
        split at hp
        · injection hp with hp; subst hp; exact ⟨h0, rfl⟩
        · obtain ⟨s1, h1, h2⟩ := Option.map_eq_some_iff.1 hp
          subst h2
          obtain ⟨k1, k2⟩ := update_tgt (fd := fd) h1
          refine ⟨?_, k2⟩
          show (Function.update s1.tgt x _ fd).loopId = 0
          by_cases hx : fd = x
          · subst hx; rw [Function.update_self]
          · rw [Function.update_of_ne hx, k1]; exact h0
    · exact absurd hp (by simp)
  | setEvent x event =>
    simp only [runOp] at h
    obtain ⟨p, hp, rfl⟩ := Option.map_eq_some_iff.1 h
    unfold setEvent setEventAt at hp
    split at hp
    · split at hp
      · split at hp
        · exact absurd hp (by simp)
        · obtain ⟨s1, h1, h2⟩ := Option.map_eq_some_iff.1 hp
          subst h2
          obtain ⟨k1, k2⟩ := update_tgt (fd := fd) h1
          exact ⟨k1.trans h0, k2⟩
      · injection hp with hp; subst hp; exact ⟨h0, rfl⟩
    · exact absurd hp (by simp)
  | open_ x => simp only [runOp] at h; injection h with h; subst h; exact ⟨h0, rfl⟩
  | close x => simp only [runOp] at h; injection h with h; subst h; exact ⟨h0, rfl⟩
  | addSig l sig cb =>
    simp only [runOp] at h
    obtain ⟨p, hp, rfl⟩ := Option.map_eq_some_iff.1 h
    unfold addSig at hp
    split at hp
    · split at hp
      · injection hp with hp; subst hp; exact ⟨h0, rfl⟩
      · injection hp with hp
        subst hp
        refine ⟨?_, rfl⟩
        show (Function.update s.tgt sig _ fd).loopId = 0
        by_cases hx : fd = sig
        · subst hx; rw [Function.update_self]; exact h0
        · rw [Function.update_of_ne hx]; exact h0
    · injection hp with hp; subst hp; exact ⟨h0, rfl⟩

theorem ops_off {maxFd maxSig : Nat} {fd : Nat} : ∀ {os : List Op} {s s' : St}, (∀ o ∈ os, ¬ o.adds fd) →
    (s.tgt fd).loopId = 0 → runOps maxFd maxSig s os = some s' → (s'.tgt fd).loopId = 0 ∧ s'.log = s.log
  | [], s, s', _, h0, h => by
    simp only [runOps] at h
    injection h with h
    subst h
    exact ⟨h0, rfl⟩
  | o :: os, s, s', hq, h0, h => by
    simp only [runOps] at h
    cases h1 : runOp maxFd maxSig s o with
    | none => rw [h1] at h; exact absurd h (by simp)
    | some s1 =>
      rw [h1] at h
      obtain ⟨k1, k2⟩ := op_off (hq o (by simp)) h0 h1
      obtain ⟨j1, j2⟩ := ops_off (fun o ho => hq o (by simp [ho])) k1 h
      exact ⟨j1, j2.trans k2⟩

theorem poll_off {maxFd maxSig : Nat} {cbs : Cbs} {fd l : Nat} (hl : l ≠ 0) (hq : ∀ n c, ∀ o ∈ cbs n c, ¬ o.adds fd) :
    ∀ {batch : List (Nat × BitVec 32)} {s s' : St}, (s.tgt fd).loopId = 0 → poll maxFd maxSig cbs l s batch = some s' →
    (s'.tgt fd).loopId = 0 ∧ ioCalls fd s'.log = ioCalls fd s.log
  | [], s, s', h0, h => by
    simp only [poll] at h
    injection h with h
    subst h
    exact ⟨h0, rfl⟩
  | e :: es, s, s', h0, h => by
    simp only [poll] at h
    cases h1 : dispatch maxFd maxSig cbs s l e.1 e.2 with
    | none => rw [h1] at h; exact absurd h (by simp)
    | some s1 =>
      rw [h1] at h
      have : (s1.tgt fd).loopId = 0 ∧ ioCalls fd s1.log = ioCalls fd s.log := by
        unfold dispatch at h1
        split at h1
        · rename_i hc
          split at h1
          · unfold call at h1
            obtain ⟨k1, k2⟩ := ops_off (hq _ _) (by exact h0) h1
            refine ⟨k1, ?_⟩
            rw [k2]
            have hne : e.1 ≠ fd := by
              intro he
              rw [he, h0] at hc
              exact hl hc.1
            simp [ioCalls, hne]
          · injection h1 with h1; subst h1; exact ⟨h0, rfl⟩
        · injection h1 with h1; subst h1; exact ⟨h0, rfl⟩
      obtain ⟨j1, j2⟩ := poll_off hl hq this.1 h
      exact ⟨j1, j2.trans this.2⟩

/-- Claim C34: from the moment a descriptor has been deleted (in particular by a callback, in the middle of a batch) until
it is added again it is not called back, whatever the program, its callbacks, signals and the kernel do. -/
theorem no_call_after_del (maxFd maxSig : Nat) (cbs : Cbs) (fd : Nat) (hq : ∀ n c, ∀ o ∈ cbs n c, ¬ o.adds fd) :
    ∀ (hs : List H) (s s' : St), (∀ o, H.op o ∈ hs → ¬ o.adds fd) → (∀ b, H.poll 0 b ∉ hs) → (s.tgt fd).loopId = 0 →
    run maxFd maxSig cbs s hs = some s' → ioCalls fd s'.log = ioCalls fd s.log
  | [], s, s', _, _, _, h => by
    simp only [run] at h
    injection h with h
    subst h
    rfl
  | e :: es, s, s', hop, hl, h0, h => by
    simp only [run] at h
    cases h1 : step maxFd maxSig cbs s e with
    | none => rw [h1] at h; exact absurd h (by simp)
    | some s1 =>
      rw [h1] at h
      have : (s1.tgt fd).loopId = 0 ∧ ioCalls fd s1.log = ioCalls fd s.log := by
        cases e with
        | op o =>
          obtain ⟨k1, k2⟩ := op_off (hop o (by simp)) h0 h1
          exact ⟨k1, by rw [k2]⟩
        | poll l batch =>
          refine poll_off ?_ hq h0 h1
          rintro rfl
          exact hl batch (by simp)
        | signal n =>
          simp only [step, signal] at h1
          split at h1
          · injection h1 with h1; subst h1; exact ⟨h0, rfl⟩
          · rename_i i cb hfind
            obtain ⟨s2, h2, h3⟩ := Option.map_eq_some_iff.1 h1
            subst h3
            unfold call at h2
            obtain ⟨k1, k2⟩ := ops_off (hq _ _) (by exact h0) h2
            refine ⟨k1, ?_⟩
            show ioCalls fd s2.log = _
            rw [k2]
            simp [ioCalls]
      have j := no_call_after_del maxFd maxSig cbs fd hq es s1 s' (fun o ho => hop o (by simp [ho]))
        (fun b hb => hl b (by simp [hb])) this.1 h
      exact j.trans this.2

/-- The hypothesis of `no_call_after_del` holds after a successful `events_del` of a descriptor without signal. -/
theorem del_unregisters (maxFd : Nat) (s s' : St) (fd : Nat) (hsig : (s.tgt fd).sigSet = false)
    (h : delFd maxFd s fd = some (0, s')) : (s'.tgt fd).loopId = 0 := by
  unfold delFd at h
  split at h
  · rw [if_neg (by rw [hsig]; simp)] at h
    unfold delIo at h
    split at h
    · simp at h
    · obtain ⟨s1, _, h2⟩ := Option.map_eq_some_iff.1 h
      injection h2 with _ h2
      subst h2
      show (Function.update s1.tgt fd _ fd).loopId = 0
      rw [Function.update_self]
  · exact absurd h (by simp)

/-! ## The reported events -/

/-- Claim C34: as long as the kernel does not report a hang-up, the callback sees READ iff input is reported, WRITE iff
output is, and nothing else. -/
theorem revents_exact_partial (mask : BitVec 32) (h : mask &&& EPOLLHUP = 0) :
    (revents mask &&& READ ≠ 0 ↔ mask &&& EPOLLIN ≠ 0) ∧ (revents mask &&& WRITE ≠ 0 ↔ mask &&& EPOLLOUT ≠ 0) ∧
      revents mask &&& ~~~ RW = 0 := by
  unfold revents
  rw [h]
  by_cases h1 : mask &&& EPOLLIN = 0 <;> by_cases h2 : mask &&& EPOLLOUT = 0 <;> simp only [h1, h2, ne_eq, not_true_eq_false,
    not_false_eq_true, if_true, if_false] <;> decide

/-- Against C34: a hang-up is reported to the callback as READ and TIMEOUT, although the kernel reports no input and no
timeout happened (`EVENTS_CLOSED` is 5 = 1 | 4). -/
theorem hangup_reported_as_read_and_timeout (mask : BitVec 32) (h : mask &&& EPOLLHUP ≠ 0) :
    revents mask &&& READ ≠ 0 ∧ revents mask &&& TIMEOUT ≠ 0 := by
  unfold revents
  by_cases h1 : mask &&& EPOLLIN = 0 <;> by_cases h2 : mask &&& EPOLLOUT = 0 <;> simp only [h, h1, h2, ne_eq,
    not_true_eq_false, not_false_eq_true, if_true, if_false] <;> decide

/-- Against the spirit of C34: an error condition alone (`EPOLLERR`) is never delivered; the state stays as it is, so the
kernel reports it again in every poll. -/
theorem error_only_never_delivered (maxFd maxSig : Nat) (cbs : Cbs) (s : St) (l fd : Nat)
    (h : l = (s.tgt fd).loopId) (he : (s.tgt fd).events &&& 3 ≠ 0) :
    dispatch maxFd maxSig cbs s l fd EPOLLERR = some s := by
  unfold dispatch
  rw [if_pos ⟨h, he⟩, if_neg (by decide)]

/-- Against C34: when a callback narrows the interest of another descriptor to READ, a WRITE event of that descriptor in the
same batch is still delivered. -/
theorem narrowed_interest_still_called :
    ∃ (cbs : Cbs), (∀ n c, ∀ o ∈ cbs n c, o = .setEvent 6 READ) ∧
      (run 64 32 cbs St.init [.op (.open_ 5), .op (.open_ 6), .op (.add 1 5 READ 100), .op (.add 1 6 RW 200),
        .poll 1 [(5, EPOLLIN), (6, EPOLLOUT)]]).map (·.log) = some [.io 1 5 READ 100, .io 1 6 WRITE 200] := by
  refine ⟨fun _ c => if c = .io 1 5 READ 100 then [.setEvent 6 READ] else [], ?_, by decide +kernel⟩
  intro n c o ho
  simp only at ho
  split at ho
  · simpa using ho
  · simp at ho

/-! ## Counting goes wrong when a registered descriptor is added again -/

theorem single_num (maxFd : Nat) (fd : Nat) (r : Reg) (a : AS) (hfd : fd < maxFd)
    (ha : a.reg = Function.update (fun _ => none) fd (some r)) : a.num maxFd r.loop = 1 := by
  have h := num_reg maxFd ⟨fun _ => none, a.opn, a.extra, a.log⟩ fd (some r) r.loop hfd
  have h0 : AS.num maxFd ⟨fun _ => none, a.opn, a.extra, a.log⟩ r.loop = 0 := by
    unfold AS.num
    rw [List.length_eq_zero_iff, List.filter_eq_nil_iff]
    intro x _
    simp
  simp only [Option.map_none, Option.map_some, reduceCtorEq, if_false, if_true, h0] at h
  have : a = { (⟨fun _ => none, a.opn, a.extra, a.log⟩ : AS) with reg := Function.update (fun _ => none) fd (some r) } := by
    rw [← ha]
  rw [this]
  omega

/-- Against C35: for every loop, descriptor, events and callbacks: after adding a descriptor twice the count is 2 with one
descriptor registered, and after deleting it the count is 1 with none registered (so the loop never ends by itself). -/
theorem add_twice_counts_twice (maxFd maxSig : Nat) (cbs : Cbs) (l fd cb cb' : Nat) (e e' : BitVec 32) (hl : l ≠ 0)
    (hfd : fd < maxFd) (he : PlainEvent e) (he' : PlainEvent e') :
    ∃ s s', run maxFd maxSig cbs St.init [.op (.open_ fd), .op (.add l fd e cb), .op (.add l fd e' cb')] = some s ∧
      s.active l = 2 ∧ (s.tgt fd).loopId = l ∧ (∀ x, x ≠ fd → (s.tgt x).loopId = 0) ∧
      runOp maxFd maxSig s (.del fd) = some s' ∧ s'.active l = 1 ∧ ∀ x, (s'.tgt x).loopId = 0 := by
  obtain ⟨a, ha⟩ : ∃ a : AS, a = ⟨Function.update (fun _ => none) fd (some ⟨l, cb', e'.setWidth 2⟩),
      Function.update (fun _ => false) fd true, Function.update (fun _ => 0) l 1, []⟩ := ⟨_, rfl⟩
  have hspec : specRun maxFd cbs AS.init [.op (.open_ fd), .op (.add l fd e cb), .op (.add l fd e' cb')] = some a := by
    simp only [specRun, specStep, specOp, AS.init, Option.bind_some]
    rw [if_pos hfd, if_pos ⟨hl, he, by simp⟩]
    simp only [Option.bind_some]
    rw [if_pos hfd, if_pos ⟨hl, he', by simp⟩, ha]
    simp [bump]
  have hnum : a.num maxFd l = 1 := single_num maxFd fd ⟨l, cb', e'.setWidth 2⟩ a hfd (by rw [ha])
  obtain ⟨s, es, i⟩ := run_inv (maxSig := maxSig) (init_inv maxFd) hspec
  have hdel : specOp maxFd a (.del fd) = some { a with reg := Function.update a.reg fd none } := by
    simp only [specOp]; rw [if_pos hfd]
  obtain ⟨s', es', i'⟩ := op_inv (maxSig := maxSig) i hdel
  have hreg' : Function.update a.reg fd none = fun _ => none := by
    rw [ha]
    funext x
    by_cases hx : x = fd
    · subst hx; simp
    · simp [Function.update_of_ne hx]
  have hextra : a.extra l = 1 := by rw [ha]; simp
  refine ⟨s, s', es, ?_, ?_, ?_, es', ?_, ?_⟩
  · rw [i.count, hnum, hextra]; rfl
  · have := i.tgt fd
    rw [show a.reg fd = some ⟨l, cb', e'.setWidth 2⟩ by rw [ha]; simp] at this
    exact this.2.1
  · intro x hx
    have := i.tgt x
    rw [show a.reg x = none by rw [ha]; simp [Function.update_of_ne hx]] at this
    exact this.1
  · rw [i'.count]
    have hn := num_reg maxFd a fd none l hfd
    rw [hnum, show a.reg fd = some ⟨l, cb', e'.setWidth 2⟩ by rw [ha]; simp] at hn
    simp only [Option.map_some, Option.map_none, reduceCtorEq, if_false, if_true] at hn
    show BitVec.ofNat 64 (AS.num maxFd ({ a with reg := Function.update a.reg fd none } : AS) l + a.extra l) = 1
    rw [hextra, show AS.num maxFd ({ a with reg := Function.update a.reg fd none } : AS) l = 0 by omega]
    rfl
  · intro x
    have := i'.tgt x
    rw [show ({ a with reg := Function.update a.reg fd none } : AS).reg x = none by
      show Function.update a.reg fd none x = none
      rw [hreg']] at this
    exact this.1

/-! ## Signals -/

/-- Signal `sig` is registered with callback `cb` on loop `l`, in one slot only, and no descriptor of the same number
disturbs it. -/
structure SigAt (maxSig : Nat) (s : St) (sig i cb l : Nat) : Prop where
  lt : i < maxSig
  slot : s.sigs i = ⟨some sig, some cb, false, some l⟩
  only : ∀ j, j ≠ i → (s.sigs j).sig = some sig → (s.sigs j).proc = none
  set : (s.tgt sig).sigSet = true
  idx : (s.tgt sig).sigIdx = i
  loop : (s.tgt sig).loop = some l
  disp : s.disp sig = true

theorem findSig_at {s : St} {sig i cb : Nat} (hp : (s.sigs i).proc = some cb) (hs : (s.sigs i).sig = some sig)
    (ho : ∀ j, j ≠ i → (s.sigs j).sig = some sig → (s.sigs j).proc = none) :
    ∀ n k, k ≤ i → i < k + n → findSig s sig n k = some (i, cb)
  | 0, k, h1, h2 => by omega
  | n + 1, k, h1, h2 => by
    simp only [findSig]
    by_cases hk : k = i
    · subst hk
      rw [hp]
      simp only
      rw [if_pos hs]
    · have ih := findSig_at hp hs ho n (k + 1) (by omega) (by omega)
      cases hpk : (s.sigs k).proc with
      | none => exact ih
      | some c =>
        simp only
        rw [if_neg]
        · exact ih
        · intro e
          rw [ho k hk e] at hpk
          exact absurd hpk (by simp)

theorem findSig_none {s : St} {sig : Nat} (ho : ∀ j, (s.sigs j).sig = some sig → (s.sigs j).proc = none) :
    ∀ n k, findSig s sig n k = none
  | 0, k => rfl
  | n + 1, k => by
    simp only [findSig]
    have ih := findSig_none ho n (k + 1)
    cases hpk : (s.sigs k).proc with
    | none => exact ih
    | some c =>
      simp only
      rw [if_neg]
      · exact ih
      · intro e
        rw [ho k e] at hpk
        exact absurd hpk (by simp)

theorem findSlot_lt {s : St} {sig : Nat} : ∀ {n k i}, findSlot s sig n k = some i → i < k + n
  | 0, k, i, h => by simp [findSlot] at h
  | n + 1, k, i, h => by
    simp only [findSlot] at h
    split at h
    · injection h with h; omega
    · have := findSlot_lt h; omega

theorem findSlot_free {s : St} {sig : Nat} : ∀ {n k j}, k ≤ j → j < k + n → (s.sigs j).proc = none →
    ∃ i, findSlot s sig n k = some i
  | 0, k, j, h1, h2, _ => by omega
  | n + 1, k, j, h1, h2, h => by
    simp only [findSlot]
    split
    · exact ⟨k, rfl⟩
    · rename_i hk
      have : k ≠ j := by
        rintro rfl
        exact hk (Or.inl h)
      exact findSlot_free (by omega) (by omega) h

/-- Claim C62: if some slot is free and the signal is not registered, adding it succeeds and leaves it registered. -/
theorem addSig_registers (maxFd maxSig : Nat) (s : St) (l sig cb : Nat) (hfd : sig < maxFd)
    (hfree : ∃ j < maxSig, (s.sigs j).proc = none) (hnew : ∀ j, (s.sigs j).sig = some sig → (s.sigs j).proc = none) :
    ∃ s' i, addSig maxFd maxSig s l sig cb = some (0, s') ∧ SigAt maxSig s' sig i cb l ∧ s'.log = s.log := by
  obtain ⟨j, hj, hp⟩ := hfree
  obtain ⟨i, hi⟩ := findSlot_free (sig := sig) (n := maxSig) (k := 0) (Nat.zero_le j) (by omega) hp
  unfold addSig
  rw [if_pos hfd, hi]
  refine ⟨_, i, rfl, ?_, rfl⟩
  constructor
  · have := findSlot_lt hi; omega
  · show Function.update s.sigs i _ i = _
    rw [Function.update_self]
  · intro j hj
    show (Function.update s.sigs i _ j).sig = some sig → (Function.update s.sigs i _ j).proc = none
    rw [Function.update_of_ne hj]
    exact hnew j
  · show (Function.update s.tgt sig _ sig).sigSet = true
    rw [Function.update_self]
  · show (Function.update s.tgt sig _ sig).sigIdx = i
    rw [Function.update_self]
  · show (Function.update s.tgt sig _ sig).loop = some l
    rw [Function.update_self]
  · show Function.update s.disp sig _ sig = true
    rw [Function.update_self]

/-- Claim C62: a registered signal calls its callback, and no other, once. -/
theorem signal_calls (maxFd maxSig : Nat) (cbs : Cbs) (s : St) (sig i cb l : Nat) (h : SigAt maxSig s sig i cb l)
    (hc : cbs s.log.length (.sig sig cb) = []) :
    ∃ s', signal maxFd maxSig cbs s sig = some s' ∧ s'.log = s.log ++ [.sig sig cb] ∧ SigAt maxSig s' sig i cb l := by
  unfold signal
  rw [if_pos h.disp, findSig_at (by rw [h.slot]) (by rw [h.slot]) h.only maxSig 0 (Nat.zero_le i) (by have := h.lt; omega)]
  simp only [call, hc, runOps, Option.map_some]
  refine ⟨_, rfl, rfl, ?_⟩
  constructor
  · exact h.lt
  · show Function.update (Function.update s.sigs i _) i _ i = _
    rw [Function.update_self, Function.update_self, h.slot]
  · intro j hj
    show (Function.update (Function.update s.sigs i _) i _ j).sig = some sig →
      (Function.update (Function.update s.sigs i _) i _ j).proc = none
    rw [Function.update_of_ne hj, Function.update_of_ne hj]
    exact h.only j hj
  · exact h.set
  · exact h.idx
  · exact h.loop
  · exact h.disp

/-- Claim C62: a signal callback can remove its own signal; it is called that one time and never for a later signal. -/
theorem signal_self_delete_partial (maxFd maxSig : Nat) (cbs : Cbs) (s : St) (sig i cb l : Nat)
    (h : SigAt maxSig s sig i cb l) (hfd : sig < maxFd) (hc : cbs s.log.length (.sig sig cb) = [.del sig]) :
    ∃ s', signal maxFd maxSig cbs s sig = some s' ∧ s'.log = s.log ++ [.sig sig cb] ∧
      s'.sigAct l = s.sigAct l - 1 ∧ signal maxFd maxSig cbs s' sig = some s' := by
  unfold signal
  rw [if_pos h.disp, findSig_at (by rw [h.slot]) (by rw [h.slot]) h.only maxSig 0 (Nat.zero_le i) (by have := h.lt; omega)]
  simp only [call, hc, runOps, runOp, delFd]
  rw [if_pos hfd, if_pos (by
    refine ⟨h.set, ?_, ?_⟩
    · show (Function.update s.sigs i _ (s.tgt sig).sigIdx).sig = _
      rw [h.idx, Function.update_self, h.slot]
    · show (Function.update s.sigs i _ (s.tgt sig).sigIdx).running = _
      rw [h.idx, Function.update_self])]
  simp only [delSig, h.loop, h.idx, Option.map_some, Option.bind_some, setTgt]
  refine ⟨_, rfl, rfl, ?_, ?_⟩
  · show Function.update s.sigAct l _ l = _
    rw [Function.update_self]
  · rw [findSig_none, ite_self]
    intro j
    show (Function.update (Function.update (Function.update s.sigs i _) i _) i _ j).sig = some sig →
      (Function.update (Function.update (Function.update s.sigs i _) i _) i _ j).proc = none
    by_cases hj : j = i
    · subst hj
      rw [Function.update_self, Function.update_self]
      intro _
      rfl
    · rw [Function.update_of_ne hj, Function.update_of_ne hj, Function.update_of_ne hj]
      exact h.only j hj

example : SigAt 32 ((run 64 32 (fun _ _ => []) St.init [.op (.addSig 1 2 7), .op (.addSig 1 15 8)]).getD St.init) 15 1 8 1 := by
  constructor
  · decide
  · rfl
  · intro j hj
    match j with
    | 0 => intro h; exact absurd h (by decide)
    | 1 => exact absurd rfl hj
    | j + 2 => intro _; rfl
  · rfl
  · rfl
  · rfl
  · rfl

/-- Against C62: outside of its handler a registered signal cannot be removed: `events_del` fails an assertion, unless a
descriptor with the number of the signal is registered with the loop of the signal. -/
theorem signal_delete_outside_handler_aborts (maxFd maxSig : Nat) (s : St) (sig i cb l : Nat)
    (h : SigAt maxSig s sig i cb l) (hfd : sig < maxFd) (hno : (s.tgt sig).loopId ≠ l) : delFd maxFd s sig = none := by
  unfold delFd
  rw [if_pos hfd, if_neg (by rw [h.idx, h.slot]; simp)]
  unfold delIo
  rw [h.loop]
  simp only [updateInternal]
  rw [if_pos hno]
  rfl

/-- Against C62: `events_add` of a signal takes over the entry of the descriptor with the same number: for every descriptor
registered with one loop and signal of that number added with another, deleting the descriptor fails an assertion. -/
theorem signal_breaks_descriptor (maxFd maxSig : Nat) (s : St) (l l' n cb : Nat) (hn : n < maxFd) (hl : l ≠ l')
    (hreg : (s.tgt n).loopId = l) (hfree : ∃ j < maxSig, (s.sigs j).proc = none)
    (hnew : ∀ j, (s.sigs j).sig = some n → (s.sigs j).proc = none) :
    ∃ s', addSig maxFd maxSig s l' n cb = some (0, s') ∧ delFd maxFd s' n = none := by
  obtain ⟨s', i, e, hs, _⟩ := addSig_registers maxFd maxSig s l' n cb hn hfree hnew
  refine ⟨s', e, signal_delete_outside_handler_aborts maxFd maxSig s' n i cb l' hs hn ?_⟩
  unfold addSig at e
  rw [if_pos hn] at e
  split at e
  · simp at e
  · injection e with e
    injection e with _ e
    subst e
    show (Function.update s.tgt n _ n).loopId ≠ l'
    rw [Function.update_self]
    exact fun h => hl (hreg.symm.trans h)

/-- Against C34 and C62: in the handler of a signal `events_del` of the descriptor with the number of the signal removes the
signal and leaves the descriptor registered. -/
theorem descriptor_delete_in_handler_deletes_signal (maxFd : Nat) (s : St) (n i l : Nat) (hn : n < maxFd)
    (hset : (s.tgt n).sigSet = true) (hidx : (s.tgt n).sigIdx = i) (hsig : (s.sigs i).sig = some n)
    (hrun : (s.sigs i).running = true) (hloop : (s.tgt n).loop = some l) :
    ∃ s', delFd maxFd s n = some (0, s') ∧ (s'.tgt n).loopId = (s.tgt n).loopId ∧
      (s'.tgt n).events = (s.tgt n).events ∧ s'.active = s.active ∧ (s'.sigs i).proc = none := by
  unfold delFd
  rw [if_pos hn, if_pos (by rw [hidx]; exact ⟨hset, hsig, hrun⟩)]
  simp only [delSig, hloop, hidx, setTgt]
  exact ⟨_, rfl, by simp, by simp, rfl, by simp⟩

/-- The hypotheses of the previous theorem occur: descriptor 10 and signal 10 (SIGUSR1) on loop 1.  The descriptor's next
event is still delivered. -/
theorem descriptor_survives_delete_in_handler :
    (run 64 32 (fun _ c => if c = .sig 10 8 then [.del 10] else []) St.init
      [.op (.open_ 10), .op (.add 1 10 READ 7), .op (.addSig 1 10 8), .signal 10, .poll 1 [(10, EPOLLIN)]]).map (·.log)
      = some [.sig 10 8, .io 1 10 READ 7] := by
  decide +kernel

/-- Against C62: a signal whose callback is replaced by adding it again counts twice: after its removal no callback is
registered but the loop still counts one signal (so it never ends by itself). -/
theorem signal_replaced_counts_twice :
    ∃ s, run 64 32 (fun _ _ => [.del 15]) St.init [.op (.addSig 1 15 8), .op (.addSig 1 15 9), .signal 15, .signal 15] = some s ∧
      s.log = [.sig 15 9] ∧ s.sigAct 1 = 1 ∧ ∀ i < 32, (s.sigs i).proc = none := by
  refine ⟨_, rfl, by decide +kernel, by decide +kernel, by decide +kernel⟩

end Verif.Fd
