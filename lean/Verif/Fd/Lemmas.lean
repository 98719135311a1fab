import Verif.Fd.Spec

namespace Verif.Fd

/-! ## Bits -/

theorem and3_zero {w : Nat} (hw : 2 ≤ w) (x : BitVec w) : x &&& 3 = 0 ↔ x.setWidth 2 = 0 := by
  rw [← BitVec.toNat_inj, ← BitVec.toNat_inj]
  have h4 : 4 ≤ 2 ^ w := by
    calc 4 = 2 ^ 2 := rfl
      _ ≤ 2 ^ w := Nat.pow_le_pow_right (by omega) hw
  have h3 : (3 : BitVec w).toNat = 3 := by
    show (BitVec.ofNat w 3).toNat = 3
    rw [BitVec.toNat_ofNat, Nat.mod_eq_of_lt (by omega)]
  rw [BitVec.toNat_and, h3, show (3 : Nat) = 2 ^ 2 - 1 by rfl, Nat.and_two_pow_sub_one_eq_mod, BitVec.toNat_setWidth]
  simp

theorem rw_zero (e : BitVec 32) : e &&& RW = 0 ↔ e.setWidth 2 = 0 := and3_zero (by omega) e

theorem add_rw (e : BitVec 32) : (e ||| ADD) &&& RW = e &&& RW := by
  rw [BitVec.and_or_distrib_right]
  have : ADD &&& RW = 0 := by decide
  rw [this]; exact BitVec.or_zero

theorem add_del (e : BitVec 32) : (e ||| ADD) &&& DEL = e &&& DEL := by
  rw [BitVec.and_or_distrib_right]
  have : ADD &&& DEL = 0 := by decide
  rw [this]; exact BitVec.or_zero

theorem add_low (e : BitVec 32) : (e ||| ADD).setWidth 8 = e.setWidth 8 := by
  rw [BitVec.setWidth_or]
  have : ADD.setWidth 8 = 0 := by decide
  rw [this]; exact BitVec.or_zero

theorem width82 (e : BitVec 32) : (e.setWidth 8).setWidth 2 = e.setWidth 2 := by
  apply BitVec.eq_of_getLsbD_eq
  intro i hi
  simp only [BitVec.getLsbD_setWidth]
  simp [hi, show i < 8 by omega]

theorem width_sign (x : BitVec 8) : (x.signExtend 32).setWidth 2 = x.setWidth 2 := by
  apply BitVec.eq_of_getLsbD_eq
  intro i hi
  simp only [BitVec.getLsbD_setWidth, BitVec.getLsbD_signExtend]
  simp [hi, show i < 8 by omega, show i < 32 by omega]

theorem width_rw (e : BitVec 32) : (e &&& RW).setWidth 2 = e.setWidth 2 := by
  rw [BitVec.setWidth_and]
  have : RW.setWidth 2 = BitVec.allOnes 2 := by decide
  rw [this, BitVec.and_allOnes]

theorem sign_zero (x : BitVec 8) : x.signExtend 32 = 0 ↔ x = 0 := by
  constructor
  · intro h
    apply BitVec.eq_of_getLsbD_eq
    intro i hi
    have := congrArg (·.getLsbD i) h
    simp only [BitVec.getLsbD_signExtend] at this
    simpa [hi, show i < 32 by omega] using this
  · rintro rfl; decide

/-! ## The relation between the code's state and the registrations -/

def tgtOk (maxFd : Nat) (s : St) (fd : Nat) : Option Reg → Prop
  | none => (s.tgt fd).loopId = 0 ∧ (s.tgt fd).loop = none
  | some r => r.loop ≠ 0 ∧ (s.tgt fd).loopId = r.loop ∧ (s.tgt fd).loop = some r.loop ∧ (s.tgt fd).cb = r.cb ∧
      (s.tgt fd).events.setWidth 2 = r.rw ∧ (r.rw = 0 → (s.tgt fd).events = 0) ∧ fd < maxFd ∧ s.opn fd = true ∧
      (r.rw ≠ 0 → (s.kset r.loop fd).isSome)

structure Inv (maxFd : Nat) (s : St) (a : AS) : Prop where
  tgt : ∀ fd, tgtOk maxFd s fd (a.reg fd)
  nosig : ∀ fd, (s.tgt fd).sigSet = false
  opn : s.opn = a.opn
  log : s.log = a.log
  count : ∀ l, s.active l = BitVec.ofNat 64 (a.num maxFd l + a.extra l)

theorem init_inv (maxFd : Nat) : Inv maxFd St.init AS.init := by
  refine ⟨fun fd => ⟨rfl, rfl⟩, fun _ => rfl, rfl, rfl, fun l => ?_⟩
  have : AS.init.num maxFd l = 0 := by
    unfold AS.num
    rw [List.length_eq_zero_iff, List.filter_eq_nil_iff]
    intro x _
    simp [AS.init]
  rw [this]
  rfl

/-! ## Counting -/

theorem num_update (maxFd : Nat) (f : Nat → Option Nat) (fd : Nat) (v : Option Nat) (l : Nat) (h : fd < maxFd) :
    ((List.range maxFd).filter fun x => Function.update f fd v x == some l).length + (if f fd = some l then 1 else 0) =
      ((List.range maxFd).filter fun x => f x == some l).length + (if v = some l then 1 else 0) := by
  induction maxFd with
  | zero => omega
  | succ n ih =>
    rw [List.range_succ, List.filter_append, List.filter_append, List.length_append, List.length_append]
    by_cases hn : fd = n
    · subst hn
      have : (List.range fd).filter (fun x => Function.update f fd v x == some l) =
          (List.range fd).filter fun x => f x == some l := by
        apply List.filter_congr
        intro x hx
        rw [Function.update_of_ne (by have := List.mem_range.1 hx; omega)]
      rw [this]
      simp only [List.filter_cons, List.filter_nil, Function.update_self, beq_iff_eq]
      by_cases h1 : f fd = some l <;> by_cases h2 : v = some l <;> simp [h1, h2]
    · have := ih (by omega)
      have e : ([n].filter fun x => Function.update f fd v x == some l) = [n].filter fun x => f x == some l := by
        simp only [List.filter_cons, List.filter_nil]
        rw [Function.update_of_ne (Ne.symm hn)]
      rw [e]
      omega

theorem num_reg (maxFd : Nat) (a : AS) (fd : Nat) (v : Option Reg) (l : Nat) (h : fd < maxFd) :
    ({ a with reg := Function.update a.reg fd v } : AS).num maxFd l + (if (a.reg fd).map (·.loop) = some l then 1 else 0) =
      a.num maxFd l + (if v.map (·.loop) = some l then 1 else 0) := by
  have := num_update maxFd (fun x => (a.reg x).map (·.loop)) fd (v.map (·.loop)) l h
  unfold AS.num
  rw [← this]
  congr 3
  funext x
  by_cases hx : x = fd
  · subst hx; simp
  · simp [Function.update_of_ne hx]

theorem ofNat_succ (n : Nat) : BitVec.ofNat 64 (n + 1) = BitVec.ofNat 64 n + 1 := by
  rw [BitVec.ofNat_add]; rfl

theorem ofNat_pred (n : Nat) : BitVec.ofNat 64 (n + 1) - 1 = BitVec.ofNat 64 n := by
  rw [ofNat_succ]; exact BitVec.add_sub_cancel _ _

/-! ## Steps -/

theorem tgtOk_congr {maxFd : Nat} {s s' : St} {fd : Nat} {o : Option Reg} (h : tgtOk maxFd s fd o) (h1 : s'.tgt fd = s.tgt fd)
    (h2 : s'.opn fd = s.opn fd) (h3 : ∀ r, o = some r → s'.kset r.loop fd = s.kset r.loop fd) : tgtOk maxFd s' fd o := by
  cases o with
  | none => unfold tgtOk at *; rw [h1]; exact h
  | some r =>
    have h3 := h3 r rfl
    simp only [tgtOk] at h ⊢
    rw [h1, h2, h3]; exact h

theorem add_inv {maxFd maxSig : Nat} {s : St} {a a' : AS} {l fd : Nat} {event : BitVec 32} {cb : Nat} (h : Inv maxFd s a)
    (hs : specOp maxFd a (.add l fd event cb) = some a') :
    ∃ s', runOp maxFd maxSig s (.add l fd event cb) = some s' ∧ Inv maxFd s' a' := by
  simp only [specOp] at hs
  simp only [runOp, addFd]
  split at hs
  · rename_i hfd
    rw [if_pos hfd]
    split at hs
    · rename_i hg
      obtain ⟨hl, hpl, hop⟩ := hg
      injection hs with hs
      have hso : s.opn fd = true := by rw [h.opn]; exact hop
      obtain ⟨t, ht⟩ : ∃ t, t = { s.tgt fd with cb := cb, loop := some l, loopId := l, events := 0 } := ⟨_, rfl⟩
      rw [← ht]
      -- what the update does
      obtain ⟨s1, hu, h1t, h1o, h1k, h1kf, h1a, h1l, ht1⟩ : ∃ s1, updateInternal (setTgt s fd t) l fd (event ||| ADD) = some s1 ∧
          (∀ x, x ≠ fd → s1.tgt x = s.tgt x) ∧ s1.opn = s.opn ∧ (∀ l' x, x ≠ fd → s1.kset l' x = s.kset l' x) ∧
          (event.setWidth 2 ≠ 0 → (s1.kset l fd).isSome) ∧ s1.active = s.active ∧ s1.log = s.log ∧
          (∃ ev : BitVec 8, s1.tgt fd = { t with events := ev } ∧ ev.setWidth 2 = event.setWidth 2 ∧
            (event.setWidth 2 = 0 → ev = 0)) := by
        unfold updateInternal
        have hst : (setTgt s fd t).tgt fd = t := Function.update_self _ _ _
        rw [hst, if_neg (by rw [ht]; simp), add_rw]
        have hte : t.events.signExtend 32 = 0 := by
          have : t.events = 0 := by rw [ht]
          rw [this]; decide
        rw [hte]
        by_cases h0 : event &&& RW = 0
        · rw [if_pos h0]
          refine ⟨_, rfl, fun x hx => Function.update_of_ne hx _ _, rfl, fun _ _ _ => rfl, ?_, rfl, rfl, 0, ?_, ?_, fun _ => rfl⟩
          · intro hc; exact absurd ((rw_zero event).1 h0) hc
          · rw [hst, ht]
          · rw [(rw_zero event).1 h0]; decide
        · rw [if_neg h0]
          unfold kernelUpdate
          rw [add_del, if_neg (by simp [hpl.1]), add_rw, if_neg h0, if_pos (by exact hso)]
          simp only [Option.map_some]
          refine ⟨_, rfl, ?_, rfl, ?_, ?_, rfl, rfl, event.setWidth 8, ?_, width82 event, ?_⟩
          · intro x hx
            show Function.update (Function.update s.tgt fd t) fd _ x = s.tgt x
            rw [Function.update_of_ne hx, Function.update_of_ne hx]
          · intro l' x hx
            show Function.update s.kset l (Function.update (s.kset l) fd _) l' x = s.kset l' x
            by_cases hll : l' = l
            · subst hll; rw [Function.update_self, Function.update_of_ne hx]
            · rw [Function.update_of_ne hll]
          · intro _
            show (Function.update s.kset l (Function.update (s.kset l) fd (some _)) l fd).isSome
            rw [Function.update_self, Function.update_self]; rfl
          · show Function.update (Function.update s.tgt fd t) fd _ fd = _
            have hst' : (setK (setTgt s fd t) l fd (some (epollMask (event ||| ADD)))).tgt fd = t := Function.update_self _ _ _
            rw [Function.update_self, add_low, hst']
          · intro hc; exact absurd ((rw_zero event).2 hc) h0
      rw [hu]
      obtain ⟨ev, hev, hev2, hev0⟩ := ht1
      refine ⟨_, rfl, ?_⟩
      subst hs
      refine ⟨?_, ?_, ?_, ?_, ?_⟩
      · intro x
        by_cases hx : x = fd
        · subst hx
          show tgtOk maxFd _ x (Function.update a.reg x (some ⟨l, cb, event.setWidth 2⟩) x)
          rw [Function.update_self]
          refine ⟨hl, ?_, ?_, ?_, ?_, ?_, hfd, ?_, h1kf⟩
          · show (s1.tgt x).loopId = l; rw [hev, ht]
          · show (s1.tgt x).loop = some l; rw [hev, ht]
          · show (s1.tgt x).cb = cb; rw [hev, ht]
          · show (s1.tgt x).events.setWidth 2 = _; rw [hev]; exact hev2
          · intro h0; show (s1.tgt x).events = 0; rw [hev]; exact hev0 h0
          · show s1.opn x = true; rw [h1o]; exact hso
        · show tgtOk maxFd _ x (Function.update a.reg fd (some ⟨l, cb, event.setWidth 2⟩) x)
          rw [Function.update_of_ne hx]
          refine tgtOk_congr (h.tgt x) (h1t x hx) (by show s1.opn x = _; rw [h1o]) (fun r _ => h1k r.loop x hx)
      · intro x
        show (s1.tgt x).sigSet = false
        by_cases hx : x = fd
        · subst hx; rw [hev, ht]; exact h.nosig x
        · rw [h1t x hx]; exact h.nosig x
      · show s1.opn = a.opn; rw [h1o, h.opn]
      · show s1.log = a.log; rw [h1l, h.log]
      · intro l'
        show Function.update s1.active l (s1.active l + 1) l' = BitVec.ofNat 64 (AS.num maxFd _ l' + bump a.extra (a.reg fd) l')
        rw [h1a]
        have hn := num_reg maxFd a fd (some ⟨l, cb, event.setWidth 2⟩) l' hfd
        have hn' : ∀ ex, AS.num maxFd ({ a with reg := Function.update a.reg fd (some ⟨l, cb, event.setWidth 2⟩), extra := ex } : AS) l' =
          AS.num maxFd ({ a with reg := Function.update a.reg fd (some ⟨l, cb, event.setWidth 2⟩) } : AS) l' := fun _ => rfl
        rw [hn']
        have hb : bump a.extra (a.reg fd) l' = a.extra l' + (if (a.reg fd).map (·.loop) = some l' then 1 else 0) := by
          cases a.reg fd with
          | none => simp [bump]
          | some r =>
            simp only [bump, Option.map_some, Option.some.injEq]
            by_cases hr : r.loop = l'
            · subst hr; simp
            · rw [Function.update_of_ne (Ne.symm hr)]; simp [hr]
        rw [hb, show ∀ p q r : Nat, p + (q + r) = p + r + q by intros; omega, hn]
        simp only [Option.map_some, Option.some.injEq]
        by_cases hll : l' = l
        · subst hll
          rw [Function.update_self, h.count, if_pos rfl, show ∀ p q : Nat, p + 1 + q = p + q + 1 by intros; omega, ofNat_succ]
        · rw [Function.update_of_ne hll, if_neg (Ne.symm hll), h.count]
          rfl
    · exact absurd hs (by simp)
  · rename_i hfd
    rw [if_neg hfd]
    injection hs with hs
    subst hs
    exact ⟨s, rfl, h⟩

theorem del_inv {maxFd maxSig : Nat} {s : St} {a a' : AS} {fd : Nat} (h : Inv maxFd s a)
    (hs : specOp maxFd a (.del fd) = some a') : ∃ s', runOp maxFd maxSig s (.del fd) = some s' ∧ Inv maxFd s' a' := by
  simp only [specOp] at hs
  split at hs
  · rename_i hfd
    injection hs with hs
    simp only [runOp, delFd]
    rw [if_pos hfd, if_neg (by rw [h.nosig]; simp)]
    unfold delIo
    have ht := h.tgt fd
    cases hr : a.reg fd with
    | none =>
      rw [hr] at ht
      rw [ht.2]
      refine ⟨s, rfl, ?_⟩
      subst hs
      rw [← hr, Function.update_eq_self]
      exact h
    | some r =>
      rw [hr] at ht
      obtain ⟨hl, h1, h2, h3, h4, h5, _, h6, h7⟩ := ht
      rw [h2]
      simp only
      obtain ⟨s1, hu, k1, k2, k3, k4, k5, k6⟩ : ∃ s1, updateInternal s r.loop fd DEL = some s1 ∧
          (∀ x, x ≠ fd → s1.tgt x = s.tgt x) ∧ (s1.tgt fd).sigSet = false ∧ s1.opn = s.opn ∧ s1.kset = s.kset ∧
          s1.active = s.active ∧ s1.log = s.log := by
        unfold updateInternal
        rw [if_neg (by simp [h1])]
        split
        · exact ⟨s, rfl, fun _ _ => rfl, h.nosig fd, rfl, rfl, rfl, rfl⟩
        · unfold kernelUpdate
          rw [if_pos (by decide)]
          refine ⟨_, rfl, fun x hx => Function.update_of_ne hx _ _, ?_, rfl, rfl, rfl, rfl⟩
          show (Function.update s.tgt fd _ fd).sigSet = false
          rw [Function.update_self]
          exact h.nosig fd
      rw [hu]
      refine ⟨_, rfl, ?_⟩
      subst hs
      refine ⟨?_, ?_, ?_, ?_, ?_⟩
      · intro x
        by_cases hx : x = fd
        · subst hx
          show tgtOk maxFd _ x (Function.update a.reg x none x)
          rw [Function.update_self]
          constructor
          · show (Function.update s1.tgt x _ x).loopId = 0
            rw [Function.update_self]
          · show (Function.update s1.tgt x _ x).loop = none
            rw [Function.update_self]
        · show tgtOk maxFd _ x (Function.update a.reg fd none x)
          rw [Function.update_of_ne hx]
          refine tgtOk_congr (h.tgt x) ?_ (by show s1.opn x = _; rw [k3]) (fun r _ => by show s1.kset r.loop x = _; rw [k4])
          show Function.update s1.tgt fd _ x = _
          rw [Function.update_of_ne hx, k1 x hx]
      · intro x
        show (Function.update s1.tgt fd _ x).sigSet = false
        by_cases hx : x = fd
        · subst hx; rw [Function.update_self]; exact k2
        · rw [Function.update_of_ne hx, k1 x hx]; exact h.nosig x
      · show s1.opn = a.opn; rw [k3, h.opn]
      · show s1.log = a.log; rw [k6, h.log]
      · intro l'
        show Function.update s1.active r.loop (s1.active r.loop - 1) l' = BitVec.ofNat 64 (AS.num maxFd _ l' + a.extra l')
        rw [k5]
        have hn := num_reg maxFd a fd none l' hfd
        rw [hr] at hn
        simp only [Option.map_some, Option.some.injEq, Option.map_none, reduceCtorEq, if_false] at hn
        by_cases hll : l' = r.loop
        · subst hll
          rw [if_pos rfl] at hn
          rw [Function.update_self, h.count, show a.num maxFd r.loop =
            AS.num maxFd ({ a with reg := Function.update a.reg fd none } : AS) r.loop + 1 by omega,
            show ∀ p q : Nat, p + 1 + q = p + q + 1 by intros; omega, ofNat_pred]
        · rw [if_neg (Ne.symm hll)] at hn
          rw [Function.update_of_ne hll, h.count, show a.num maxFd l' =
            AS.num maxFd ({ a with reg := Function.update a.reg fd none } : AS) l' by omega]
  · exact absurd hs (by simp)

theorem setEvent_inv {maxFd maxSig : Nat} {s : St} {a a' : AS} {fd : Nat} {event : BitVec 32} (h : Inv maxFd s a)
    (hs : specOp maxFd a (.setEvent fd event) = some a') :
    ∃ s', runOp maxFd maxSig s (.setEvent fd event) = some s' ∧ Inv maxFd s' a' := by
  simp only [specOp] at hs
  split at hs
  · rename_i hg
    obtain ⟨hfd, he3⟩ := hg
    have ht := h.tgt fd
    cases hr : a.reg fd with
    | none => rw [hr] at hs; exact absurd hs (by simp)
    | some r =>
      rw [hr] at hs ht
      simp only [Option.map_some, Option.some.injEq] at hs
      obtain ⟨hl, h1, h2, h3, h4, h5, _, h6, h7⟩ := ht
      have hrw : event &&& RW = event := he3
      have hdel : event &&& DEL = 0 := by
        rw [← hrw, BitVec.and_assoc]
        have : RW &&& DEL = 0 := by decide
        rw [this]; exact BitVec.and_zero
      have hlow : event.setWidth 2 = 0 → event = 0 := by
        intro h0; rw [← hrw]; exact (rw_zero event).2 h0
      simp only [runOp, setEvent]
      rw [if_pos hfd]
      -- the resulting state differs from `s` only in the event set of `fd`
      obtain ⟨s1, hgo, k1, k2, k3, k4, k5, k6, k7⟩ : ∃ s1, setEventAt s fd event = some (0, s1) ∧
          (∀ x, x ≠ fd → s1.tgt x = s.tgt x) ∧ s1.opn = s.opn ∧ (∀ l' x, x ≠ fd → s1.kset l' x = s.kset l' x) ∧
          (event.setWidth 2 ≠ 0 → (s1.kset r.loop fd).isSome) ∧ s1.active = s.active ∧ s1.log = s.log ∧
          (∃ ev : BitVec 8, s1.tgt fd = { s.tgt fd with events := ev } ∧ ev.setWidth 2 = event.setWidth 2 ∧
            (event.setWidth 2 = 0 → ev = 0)) := by
        have hsame : ∀ e : BitVec 32, (s.tgt fd).events.signExtend 32 = e → e.setWidth 2 = event.setWidth 2 →
            (event.setWidth 2 ≠ 0 → (s.kset r.loop fd).isSome) ∧
            ∃ ev : BitVec 8, s.tgt fd = { s.tgt fd with events := ev } ∧ ev.setWidth 2 = event.setWidth 2 ∧
              (event.setWidth 2 = 0 → ev = 0) := by
          intro e he h2'
          have hw : (s.tgt fd).events.setWidth 2 = event.setWidth 2 := by rw [← width_sign, he, h2']
          refine ⟨fun hne => h7 (by rw [← h4, hw]; exact hne), (s.tgt fd).events, rfl, hw, fun h0 => h5 ?_⟩
          rw [← h4, hw, h0]
        unfold setEventAt
        by_cases hne : (s.tgt fd).events.signExtend 32 = event
        · rw [if_neg (by simp [hne])]
          obtain ⟨q1, q2⟩ := hsame event hne rfl
          exact ⟨s, rfl, fun _ _ => rfl, rfl, fun _ _ _ => rfl, q1, rfl, rfl, q2⟩
        · rw [if_pos hne]
          have hlo : loopOf s fd = some r.loop := by
            unfold loopOf; rw [h.nosig]; simpa using h2
          rw [hlo]
          simp only
          unfold updateInternal
          rw [if_neg (by simp [h1]), hrw]
          rw [if_neg (fun hc => hne hc.symm)]
          unfold kernelUpdate
          rw [if_neg (by simp [hdel]), hrw]
          by_cases h0 : event = 0
          · rw [if_pos h0]
            have hev : (s.tgt fd).events ≠ 0 := by
              intro hc
              apply hne
              rw [hc, h0]
              decide
            have hrne : r.rw ≠ 0 := fun hc => hev (h5 hc)
            rw [if_pos ⟨h6, h7 hrne⟩]
            refine ⟨_, rfl, fun x hx => Function.update_of_ne hx _ _, rfl, ?_, ?_, rfl, rfl, 0, ?_, ?_, fun _ => rfl⟩
            · intro l' x hx
              show Function.update s.kset r.loop (Function.update (s.kset r.loop) fd _) l' x = s.kset l' x
              by_cases hll : l' = r.loop
              · subst hll; rw [Function.update_self, Function.update_of_ne hx]
              · rw [Function.update_of_ne hll]
            · intro hc; rw [h0] at hc; exact absurd (by decide) hc
            · show Function.update s.tgt fd _ fd = _
              rw [Function.update_self, h0]
              rfl
            · rw [h0]; decide
          · rw [if_neg h0, if_pos h6]
            refine ⟨_, rfl, fun x hx => Function.update_of_ne hx _ _, rfl, ?_, ?_, rfl, rfl, event.setWidth 8, ?_, width82 event, ?_⟩
            · intro l' x hx
              show Function.update s.kset r.loop (Function.update (s.kset r.loop) fd _) l' x = s.kset l' x
              by_cases hll : l' = r.loop
              · subst hll; rw [Function.update_self, Function.update_of_ne hx]
              · rw [Function.update_of_ne hll]
            · intro _
              show (Function.update s.kset r.loop (Function.update (s.kset r.loop) fd (some _)) r.loop fd).isSome
              rw [Function.update_self, Function.update_self]; rfl
            · show Function.update s.tgt fd _ fd = _
              rw [Function.update_self]
              rfl
            · intro hc; exact absurd (hlow hc) h0
      rw [hgo]
      obtain ⟨ev, hev, hev2, hev0⟩ := k7
      refine ⟨s1, rfl, ?_⟩
      subst hs
      refine ⟨?_, ?_, ?_, ?_, ?_⟩
      · intro x
        by_cases hx : x = fd
        · subst hx
          show tgtOk maxFd _ x (Function.update a.reg x (some { r with rw := event.setWidth 2 }) x)
          rw [Function.update_self]
          refine ⟨hl, by rw [hev]; exact h1, by rw [hev]; exact h2, by rw [hev]; exact h3, by rw [hev]; exact hev2, ?_, hfd,
            by rw [k2]; exact h6, k4⟩
          intro h0; rw [hev]; exact hev0 h0
        · show tgtOk maxFd _ x (Function.update a.reg fd (some { r with rw := event.setWidth 2 }) x)
          rw [Function.update_of_ne hx]
          exact tgtOk_congr (h.tgt x) (k1 x hx) (by rw [k2]) (fun r _ => k3 r.loop x hx)
      · intro x
        by_cases hx : x = fd
        · subst hx; rw [hev]; exact h.nosig x
        · rw [k1 x hx]; exact h.nosig x
      · rw [k2]; exact h.opn
      · rw [k6]; exact h.log
      · intro l'
        rw [k5, h.count]
        have hn := num_reg maxFd a fd (some { r with rw := event.setWidth 2 }) l' hfd
        rw [hr] at hn
        simp only [Option.map_some] at hn
        show BitVec.ofNat 64 (a.num maxFd l' + a.extra l') = BitVec.ofNat 64 (AS.num maxFd _ l' + a.extra l')
        have hn' : a.num maxFd l' = AS.num maxFd ({ a with
            reg := Function.update a.reg fd (some { r with rw := event.setWidth 2 }) } : AS) l' := by omega
        rw [hn']
  · exact absurd hs (by simp)

theorem op_inv {maxFd maxSig : Nat} {s : St} {a a' : AS} {o : Op} (h : Inv maxFd s a) (hs : specOp maxFd a o = some a') :
    ∃ s', runOp maxFd maxSig s o = some s' ∧ Inv maxFd s' a' := by
  cases o with
  | add l fd event cb => exact add_inv h hs
  | del fd => exact del_inv h hs
  | setEvent fd event => exact setEvent_inv h hs
  | open_ fd =>
    simp only [specOp] at hs
    injection hs with hs
    subst hs
    refine ⟨_, rfl, ?_, h.nosig, ?_, h.log, h.count⟩
    · intro x
      have ht := h.tgt x
      show tgtOk maxFd _ x (a.reg x)
      cases hr : a.reg x with
      | none => rw [hr] at ht; exact ht
      | some r =>
        rw [hr] at ht
        obtain ⟨hl, h1, h2, h3, h4, h5, hm, h6, h7⟩ := ht
        refine ⟨hl, h1, h2, h3, h4, h5, hm, ?_, h7⟩
        show Function.update s.opn fd true x = true
        by_cases hx : x = fd
        · subst hx; simp
        · rw [Function.update_of_ne hx]; exact h6
    · show Function.update s.opn fd true = Function.update a.opn fd true
      rw [h.opn]
  | close fd =>
    simp only [specOp] at hs
    split at hs
    · rename_i hn
      injection hs with hs
      subst hs
      refine ⟨_, rfl, ?_, h.nosig, ?_, h.log, h.count⟩
      · intro x
        have ht := h.tgt x
        show tgtOk maxFd _ x (a.reg x)
        by_cases hx : x = fd
        · subst hx
          rw [Option.isNone_iff_eq_none.1 hn] at ht ⊢
          exact ht
        · refine tgtOk_congr ht rfl ?_ ?_
          · show Function.update s.opn fd false x = _
            rw [Function.update_of_ne hx]
          · intro r _
            show Function.update (s.kset r.loop) fd none x = _
            rw [Function.update_of_ne hx]
      · show Function.update s.opn fd false = Function.update a.opn fd false
        rw [h.opn]
    · exact absurd hs (by simp)
  | addSig l sig cb => exact absurd hs (by simp [specOp])

theorem ops_inv {maxFd maxSig : Nat} : ∀ {os : List Op} {s : St} {a a' : AS}, Inv maxFd s a → specOps maxFd a os = some a' →
    ∃ s', runOps maxFd maxSig s os = some s' ∧ Inv maxFd s' a'
  | [], s, a, a', h, hs => by
    simp only [specOps] at hs
    injection hs with hs
    subst hs
    exact ⟨s, rfl, h⟩
  | o :: os, s, a, a', h, hs => by
    simp only [specOps] at hs
    cases h1 : specOp maxFd a o with
    | none => rw [h1] at hs; exact absurd hs (by simp)
    | some a1 =>
      rw [h1] at hs
      obtain ⟨s1, e1, i1⟩ := op_inv (maxSig := maxSig) h h1
      obtain ⟨s2, e2, i2⟩ := ops_inv (maxSig := maxSig) i1 hs
      exact ⟨s2, by simp only [runOps]; rw [e1]; exact e2, i2⟩

theorem dispatch_inv {maxFd maxSig : Nat} {cbs : Cbs} {s : St} {a a' : AS} {l fd : Nat} {mask : BitVec 32} (hl : l ≠ 0)
    (h : Inv maxFd s a) (hs : specDispatch maxFd cbs a l fd mask = some a') :
    ∃ s', dispatch maxFd maxSig cbs s l fd mask = some s' ∧ Inv maxFd s' a' := by
  unfold specDispatch at hs
  unfold dispatch
  have ht := h.tgt fd
  -- forgetting the kernel's interest is harmless when the loop has none
  have hforget : (∀ r, a.reg fd = some r → r.loop = l → r.rw = 0) → Inv maxFd (setK s l fd none) a := by
    intro hc
    refine { h with tgt := ?_ }
    intro x
    have hx := h.tgt x
    cases hr : a.reg x with
    | none => rw [hr] at hx; exact hx
    | some r =>
      rw [hr] at hx
      obtain ⟨hl', h1, h2, h3, h4, h5, hm, h6, h7⟩ := hx
      refine ⟨hl', h1, h2, h3, h4, h5, hm, h6, ?_⟩
      intro hne
      show (Function.update s.kset l (Function.update (s.kset l) fd none) r.loop x).isSome
      by_cases hll : r.loop = l
      · by_cases hxf : x = fd
        · subst hxf
          exact absurd (hc r hr hll) hne
        · rw [hll, Function.update_self, Function.update_of_ne hxf, ← hll]; exact h7 hne
      · rw [Function.update_of_ne hll]; exact h7 hne
  cases hr : a.reg fd with
  | none =>
    rw [hr] at hs ht
    simp only [Option.some.injEq] at hs
    subst hs
    rw [if_neg (by rw [ht.1]; simp [hl])]
    refine ⟨_, rfl, hforget ?_⟩
    intro r hr'
    rw [hr] at hr'
    exact absurd hr' (by simp)
  | some r =>
    rw [hr] at hs ht
    simp only at hs
    obtain ⟨hl', h1, h2, h3, h4, h5, hm, h6, h7⟩ := ht
    have hcond : (l = (s.tgt fd).loopId ∧ (s.tgt fd).events &&& 3 ≠ 0) ↔ (r.loop = l ∧ r.rw ≠ 0) := by
      rw [h1, ne_eq, and3_zero (by omega), h4]
      constructor
      · rintro ⟨rfl, h⟩; exact ⟨rfl, h⟩
      · rintro ⟨rfl, h⟩; exact ⟨rfl, h⟩
    by_cases hc : r.loop = l ∧ r.rw ≠ 0
    · rw [if_pos (hcond.2 hc)]
      by_cases hrev : revents mask = 0
      · rw [if_neg (by simp [hrev])]
        rw [if_neg (by simp [hrev])] at hs
        injection hs with hs
        subst hs
        exact ⟨s, rfl, h⟩
      · rw [if_pos hrev]
        rw [if_pos ⟨hc.1, hc.2, hrev⟩] at hs
        unfold call
        rw [h3, h.log]
        exact ops_inv (s := { s with log := a.log ++ [.io l fd (revents mask) r.cb] })
          (a := { a with log := a.log ++ [.io l fd (revents mask) r.cb] }) ⟨h.tgt, h.nosig, h.opn, rfl, h.count⟩ hs
    · rw [if_neg (fun h' => hc (hcond.1 h'))]
      rw [if_neg (fun h' => hc ⟨h'.1, h'.2.1⟩)] at hs
      injection hs with hs
      subst hs
      refine ⟨_, rfl, hforget ?_⟩
      intro r' hr' hll
      rw [hr] at hr'
      injection hr' with hr'
      subst hr'
      by_contra hne
      exact hc ⟨hll, hne⟩

theorem poll_inv {maxFd maxSig : Nat} {cbs : Cbs} {l : Nat} (hl : l ≠ 0) : ∀ {batch : List (Nat × BitVec 32)} {s : St}
    {a a' : AS}, Inv maxFd s a → specPoll maxFd cbs l a batch = some a' →
    ∃ s', poll maxFd maxSig cbs l s batch = some s' ∧ Inv maxFd s' a'
  | [], s, a, a', h, hs => by
    simp only [specPoll] at hs
    injection hs with hs
    subst hs
    exact ⟨s, rfl, h⟩
  | e :: es, s, a, a', h, hs => by
    simp only [specPoll] at hs
    cases h1 : specDispatch maxFd cbs a l e.1 e.2 with
    | none => rw [h1] at hs; exact absurd hs (by simp)
    | some a1 =>
      rw [h1] at hs
      obtain ⟨s1, e1, i1⟩ := dispatch_inv (maxSig := maxSig) hl h h1
      obtain ⟨s2, e2, i2⟩ := poll_inv (maxSig := maxSig) hl i1 hs
      exact ⟨s2, by simp only [poll]; rw [e1]; exact e2, i2⟩

theorem run_inv {maxFd maxSig : Nat} {cbs : Cbs} : ∀ {hs : List H} {s : St} {a a' : AS}, Inv maxFd s a →
    specRun maxFd cbs a hs = some a' → ∃ s', run maxFd maxSig cbs s hs = some s' ∧ Inv maxFd s' a'
  | [], s, a, a', h, hr => by
    simp only [specRun] at hr
    injection hr with hr
    subst hr
    exact ⟨s, rfl, h⟩
  | e :: es, s, a, a', h, hr => by
    simp only [specRun] at hr
    cases h1 : specStep maxFd cbs a e with
    | none => rw [h1] at hr; exact absurd hr (by simp)
    | some a1 =>
      rw [h1] at hr
      have : ∃ s1, step maxFd maxSig cbs s e = some s1 ∧ Inv maxFd s1 a1 := by
        cases e with
        | op o => exact op_inv h h1
        | poll l batch =>
          simp only [specStep] at h1
          split at h1
          · rename_i hl; exact poll_inv hl h h1
          · exact absurd h1 (by simp)
        | signal n => exact absurd h1 (by simp [specStep])
      obtain ⟨s1, e1, i1⟩ := this
      obtain ⟨s2, e2, i2⟩ := run_inv (maxSig := maxSig) i1 hr
      exact ⟨s2, by simp only [run]; rw [e1]; exact e2, i2⟩

end Verif.Fd
