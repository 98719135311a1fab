import Verif.Kq.Spec

/-! # Lemmas on the kqueue model -/

namespace Verif.Kq

open Verif.Fd (READ WRITE CLOSED RW ADD DEL)

/-- The packed list pointers that occur: -1 and descriptors below 2^23. -/
def Small (n : BitVec 32) : Prop := n = -1 ∨ n.toNat < 2 ^ 23

theorem build32 (n : BitVec 32) (e : BitVec 8) : (build n e).setWidth 32 = (n <<< 8) ||| e.setWidth 32 := by
  apply BitVec.eq_of_getLsbD_eq
  intro i hi
  unfold build
  simp only [BitVec.getLsbD_setWidth, BitVec.getLsbD_or, BitVec.getLsbD_and, BitVec.getLsbD_signExtend]
  have h255 : (255 : BitVec 32).getLsbD i = decide (i < 8) := by
    interval_cases i <;> decide
  rw [h255]
  by_cases h8 : i < 8
  · simp [h8, hi, show i < 64 by omega]
  · simp [h8, hi, show i < 64 by omega, BitVec.getLsbD_of_ge _ _ (Nat.le_of_not_lt h8)]

theorem getNext_build {n : BitVec 32} {e : BitVec 8} (h : Small n) : getNext (build n e) = n := by
  have hb : ∀ i, 23 ≤ i → i < 32 → n.getLsbD i = n.msb := by
    rcases h with rfl | h
    · intro i _ hi
      interval_cases i <;> decide
    · intro i h1 h2
      have : ∀ j, 23 ≤ j → n.getLsbD j = false := fun j hj =>
        Nat.testBit_lt_two_pow (Nat.lt_of_lt_of_le h (Nat.pow_le_pow_right (by norm_num) hj))
      rw [this i h1, BitVec.msb_eq_getLsbD_last, this 31 (by norm_num)]
  unfold getNext
  rw [build32]
  apply BitVec.eq_of_getLsbD_eq
  intro i hi
  rw [BitVec.getLsbD_sshiftRight]
  by_cases h24 : 8 + i < 32
  · simp [h24, hi, show ¬ 32 ≤ i by omega]
  · rw [hb i (by omega) hi]
    simp only [h24, if_false]
    rw [BitVec.msb_eq_getLsbD_last]
    have h23 := hb 23 (by norm_num) (by norm_num)
    rw [BitVec.msb_eq_getLsbD_last] at h23
    simp only [BitVec.getLsbD_or, BitVec.getLsbD_shiftLeft, BitVec.msb_eq_getLsbD_last, BitVec.getLsbD_setWidth]
    simp only [show 32 - 1 = 31 from rfl, show 31 - 8 = 23 from rfl, BitVec.getLsbD_of_ge e 31 (by norm_num), h23]
    simp
    omega

theorem getOld_build {n : BitVec 32} {e : BitVec 8} : getOld (build n e) = e.setWidth 32 := by
  unfold getOld
  rw [build32]
  apply BitVec.eq_of_getLsbD_eq
  intro i hi
  have h255 : (255 : BitVec 32).getLsbD i = decide (i < 8) := by
    interval_cases i <;> decide
  simp only [BitVec.getLsbD_setWidth, BitVec.getLsbD_or, BitVec.getLsbD_and, h255, BitVec.getLsbD_shiftLeft]
  by_cases h8 : i < 8
  · simp [h8, hi]
  · simp [h8, BitVec.getLsbD_of_ge _ _ (Nat.le_of_not_lt h8)]

theorem build_ne (n : BitVec 32) (e : BitVec 8) : build n e ≠ -1 := by
  intro h
  have := congrArg (·.getLsbD 63) h
  simp [build] at this

/-- What the kernel has been told about a descriptor. -/
def KOk (kf : Filt → Option Bool) (ev : BitVec 32) : Prop :=
  (ev = 0 ∨ ev = 1 ∨ ev = 2 ∨ ev = 3) ∧ (kf .read = some true ↔ ev = 1 ∨ ev = 3) ∧ (kf .write = some true ↔ ev = 2)

/-- The events last told to the kernel. -/
def known (t : Tgt) : BitVec 32 := if t.backend = -1 then t.events.signExtend 32 else getOld t.backend

/-- The list of pending changes. -/
def Chain (maxFd : Nat) (tgt : Nat → Tgt) : BitVec 32 → List Nat → Prop
  | c, [] => c = -1
  | c, x :: xs => c = BitVec.ofNat 32 x ∧ x < maxFd ∧ ∃ nx old, (tgt x).backend = build nx old ∧ Chain maxFd tgt nx xs

theorem Chain.small {maxFd : Nat} (hm : maxFd ≤ 2 ^ 23) {tgt : Nat → Tgt} {c : BitVec 32} {L : List Nat}
    (h : Chain maxFd tgt c L) : Small c := by
  cases L with
  | nil => exact Or.inl h
  | cons x xs =>
    obtain ⟨rfl, hx, _⟩ := h
    refine Or.inr ?_
    rw [BitVec.toNat_ofNat, Nat.mod_eq_of_lt (by omega)]
    omega

theorem Chain.congr {maxFd : Nat} {tgt tgt' : Nat → Tgt} : ∀ {L : List Nat} {c : BitVec 32},
    (∀ x ∈ L, (tgt' x).backend = (tgt x).backend) → Chain maxFd tgt c L → Chain maxFd tgt' c L
  | [], _, _, h => h
  | x :: xs, c, he, ⟨h1, h2, nx, old, h3, h4⟩ =>
    ⟨h1, h2, nx, old, (he x (by simp)).trans h3, Chain.congr (fun y hy => he y (by simp [hy])) h4⟩

theorem Chain.ne {maxFd : Nat} {tgt : Nat → Tgt} : ∀ {L : List Nat} {c : BitVec 32}, Chain maxFd tgt c L →
    ∀ x ∈ L, (tgt x).backend ≠ -1 ∧ x < maxFd
  | [], _, _ => by simp
  | y :: ys, c, ⟨_, h2, nx, old, h3, h4⟩ => by
    intro x hx
    rcases List.mem_cons.1 hx with rfl | hx
    · exact ⟨by rw [h3]; exact build_ne _ _, h2⟩
    · exact h4.ne x hx

/-- The agreement of the specification and the model; `kv` is the kernel after the changes that are in the change list. -/
structure Core (maxFd : Nat) (a : AS) (s : St) (kv : Kern) (L : List Nat) : Prop where
  chain : Chain maxFd s.tgt s.changed L
  nodup : L.Nodup
  mem : ∀ fd ∈ L, (a.reg fd).isSome
  off : ∀ fd, fd ∉ L → (a.reg fd).isSome → (s.tgt fd).backend = -1
  unreg : ∀ fd, a.reg fd = none → (s.tgt fd).reg = false
  reg : ∀ fd r, a.reg fd = some r → (s.tgt fd).reg = true ∧ (s.tgt fd).events = r.rw.setWidth 8 ∧ (s.tgt fd).cb = r.cb
  opn : s.opn = a.opn
  used : ∀ fd, (a.reg fd).isSome → a.opn fd = true ∧ a.used fd = true ∧ fd < maxFd
  kern : ∀ fd, (a.reg fd).isSome → KOk (kv fd) (known (s.tgt fd))
  fresh : ∀ fd, a.used fd = false → kv fd = fun _ => none
  log : s.log = a.log

def Inv (maxFd : Nat) (a : AS) (s : St) : Prop := ∃ L, Core maxFd a s s.k L

theorem init_inv (maxFd : Nat) : Inv maxFd AS.init St.init := by
  refine ⟨[], rfl, List.nodup_nil, by simp, ?_, fun _ _ => rfl, ?_, rfl, ?_, ?_, fun _ _ => rfl, rfl⟩ <;>
    simp [AS.init]

/-- The changes for one descriptor. -/
def changes (fd : Nat) (e o : BitVec 32) : List Change :=
  (if o ≠ 0 then [⟨fd, filterOf o, false⟩] else []) ++ (if e ≠ 0 then [⟨fd, filterOf e, true⟩] else [])

theorem changes_length (fd : Nat) (e o : BitVec 32) : (changes fd e o).length ≤ 2 := by
  unfold changes
  split <;> split <;> simp

theorem putBoth_eq {cl : List Change} (h : cl.length ≤ 254) (fd : Nat) (e o : BitVec 32) :
    putBoth cl fd e o = some (cl ++ changes fd e o) := by
  unfold putBoth changes put
  by_cases ho : o = 0 <;> by_cases he : e = 0 <;>
    simp only [ho, he, ne_eq, not_true_eq_false, not_false_eq_true, if_true, if_false, Option.bind_some, List.append_nil,
      List.nil_append, List.length_append, List.length_singleton, List.append_assoc]
  · rw [if_pos (by omega)]
  · rw [if_pos (by omega)]; rfl
  · rw [if_pos (by omega)]
    simp only [Option.bind_some, List.length_append, List.length_singleton, List.append_assoc]
    rw [if_pos (by omega)]

theorem keventAll_append (opn : Nat → Bool) : ∀ (cl : List Change) (k : Kern) (cs : List Change),
    keventAll opn k (cl ++ cs) = (keventAll opn k cl).bind fun k => keventAll opn k cs
  | [], _, _ => rfl
  | c :: cl, k, cs => by
    simp only [List.cons_append, keventAll]
    cases kevent1 opn k c with
    | none => rfl
    | some k1 => exact keventAll_append opn cl k1 cs

theorem keventSome_eq (opn : Nat → Bool) : ∀ (cl : List Change) (k k' : Kern), keventAll opn k cl = some k' →
    keventSome opn k cl = k'
  | [], _, _, h => by injection h
  | c :: cl, k, k', h => by
    simp only [keventAll] at h
    simp only [keventSome]
    cases hc : kevent1 opn k c with
    | none => rw [hc] at h; simp at h
    | some k1 => rw [hc] at h; exact keventSome_eq opn cl k1 k' h

theorem filt_of {e : BitVec 32} (he : e = 1 ∨ e = 2 ∨ e = 3) :
    filt (filterOf e) = some (if e = 2 then .write else .read) := by
  rcases he with rfl | rfl | rfl <;> decide

theorem kernel_off {opn : Nat → Bool} {k : Kern} {fd : Nat} {o : BitVec 32} (ho : opn fd = true)
    (hk : KOk (k fd) o) : ∃ k', keventAll opn k (if o ≠ 0 then [⟨fd, filterOf o, false⟩] else []) = some k' ∧ KOk (k' fd) 0 ∧
      ∀ y, y ≠ fd → k' y = k y := by
  by_cases h0 : o = 0
  · subst h0
    exact ⟨k, rfl, hk, fun _ _ => rfl⟩
  · obtain ⟨h1, hr, hw⟩ := hk
    have hf := filt_of (h1.resolve_left h0)
    have hs : k fd (if o = 2 then .write else .read) = some true := by
      rcases h1.resolve_left h0 with rfl | rfl | rfl
      · exact hr.2 (Or.inl rfl)
      · exact hw.2 rfl
      · exact hr.2 (Or.inr rfl)
    refine ⟨Function.update k fd (Function.update (k fd) (if o = 2 then .write else .read) (some false)), ?_, ?_, ?_⟩
    · rw [if_pos h0]
      simp only [keventAll, kevent1, hf, ho, if_true, hs, Option.isSome_some]
      rfl
    · rw [Function.update_self]
      have h12 : k fd .read = some true → o ≠ 2 := fun h e => by
        have := hr.1 h
        rw [e] at this
        exact absurd this (by decide)
      refine ⟨Or.inl rfl, ⟨fun h => ?_, fun h => absurd h (by decide)⟩, ⟨fun h => ?_, fun h => absurd h (by decide)⟩⟩
      · by_cases h2 : o = 2
        · rw [if_pos h2, Function.update_of_ne (by decide)] at h
          exact absurd h2 (h12 h)
        · rw [if_neg h2, Function.update_self] at h
          exact absurd h (by decide)
      · by_cases h2 : o = 2
        · rw [if_pos h2, Function.update_self] at h
          exact absurd h (by decide)
        · rw [if_neg h2, Function.update_of_ne (by decide)] at h
          exact absurd (hw.1 h) h2
    · intro y hy
      rw [Function.update_of_ne hy]

theorem kernel_on {opn : Nat → Bool} {k : Kern} {fd : Nat} {e : BitVec 32} (ho : opn fd = true)
    (hk : KOk (k fd) 0) (he : e = 0 ∨ e = 1 ∨ e = 2 ∨ e = 3) :
    ∃ k', keventAll opn k (if e ≠ 0 then [⟨fd, filterOf e, true⟩] else []) = some k' ∧ KOk (k' fd) e ∧
      ∀ y, y ≠ fd → k' y = k y := by
  by_cases h0 : e = 0
  · subst h0
    exact ⟨k, rfl, hk, fun _ _ => rfl⟩
  · obtain ⟨h1, hr, hw⟩ := hk
    have hf := filt_of (he.resolve_left h0)
    have hr' : k fd .read ≠ some true := fun h => absurd (hr.1 h) (by decide)
    have hw' : k fd .write ≠ some true := fun h => absurd (hw.1 h) (by decide)
    refine ⟨Function.update k fd (Function.update (k fd) (if e = 2 then .write else .read) (some true)), ?_, ?_, ?_⟩
    · rw [if_pos h0]
      simp only [keventAll, kevent1, hf, ho, if_true]
      rfl
    · rw [Function.update_self]
      refine ⟨he, ?_, ?_⟩
      · by_cases h2 : e = 2
        · subst h2
          rw [if_pos rfl, Function.update_of_ne (by decide)]
          exact ⟨fun h => absurd h hr', fun h => absurd h (by decide)⟩
        · rw [if_neg h2, Function.update_self]
          exact ⟨fun _ => by rcases he with h | h | h | h <;> simp_all, fun _ => rfl⟩
      · by_cases h2 : e = 2
        · subst h2
          rw [if_pos rfl, Function.update_self]
          exact ⟨fun _ => rfl, fun _ => rfl⟩
        · rw [if_neg h2, Function.update_of_ne (by decide)]
          exact ⟨fun h => absurd h hw', fun h => absurd h h2⟩
    · intro y hy
      rw [Function.update_of_ne hy]

theorem changes_kernel {opn : Nat → Bool} {k : Kern} {fd : Nat} {e o : BitVec 32} (ho : opn fd = true)
    (hk : KOk (k fd) o) (he : e = 0 ∨ e = 1 ∨ e = 2 ∨ e = 3) :
    ∃ k', keventAll opn k (changes fd e o) = some k' ∧ KOk (k' fd) e ∧ ∀ y, y ≠ fd → k' y = k y := by
  obtain ⟨k1, h1, h2, h3⟩ := kernel_off ho hk
  obtain ⟨k2, h4, h5, h6⟩ := kernel_on ho h2 he
  refine ⟨k2, ?_, h5, fun y hy => (h6 y hy).trans (h3 y hy)⟩
  unfold changes
  rw [keventAll_append, h1]
  exact h4

theorem ev_cases (rw : BitVec 2) : let e : BitVec 32 := (rw.setWidth 8 : BitVec 8).signExtend 32
    e = 0 ∨ e = 1 ∨ e = 2 ∨ e = 3 := by
  revert rw
  decide

/-- One turn of the loop. -/
theorem tell_core {maxFd : Nat} (hm : maxFd ≤ 2 ^ 23) {a : AS} {s : St} {kv : Kern} {x : Nat} {xs : List Nat}
    {cl : List Change} (h : Core maxFd a s kv (x :: xs)) (hk : keventAll s.opn s.k cl = some kv) (hl : cl.length ≤ 254) :
    ∃ s1 cl1 kv1, tell s cl x ((s.tgt x).events.signExtend 32) (getOld (s.tgt x).backend) = some (s1, cl1) ∧
      keventAll s1.opn s1.k cl1 = some kv1 ∧ cl1.length ≤ 254 ∧ s1.tgt = s.tgt ∧ s1.changed = s.changed ∧
      Core maxFd a (setTgt { s1 with changed := getNext (s1.tgt x).backend } x { s1.tgt x with backend := -1 }) kv1 xs := by
  obtain ⟨hc, hx, nx, old, hb, hch⟩ := h.chain
  obtain ⟨r, hr⟩ := Option.isSome_iff_exists.1 (h.mem x (by simp))
  have hreg := h.reg x r hr
  have hnd := List.nodup_cons.1 h.nodup
  have hkn := h.kern x (by rw [hr]; rfl)
  have hknown : known (s.tgt x) = getOld (s.tgt x).backend := by
    unfold known
    rw [if_neg (by rw [hb]; exact build_ne _ _)]
  rw [hknown] at hkn
  have hev := ev_cases r.rw
  rw [← hreg.2.1] at hev
  obtain ⟨kv1, hk1, hok, hother⟩ := changes_kernel (opn := s.opn) (by rw [h.opn]; exact (h.used x (by rw [hr]; rfl)).1) hkn hev
  -- the final step, whatever the batching
  have fin : ∀ (s1 : St) (kv1 : Kern), s1.tgt = s.tgt → s1.opn = s.opn → s1.log = s.log → KOk (kv1 x)
      ((s.tgt x).events.signExtend 32) → (∀ y, y ≠ x → kv1 y = kv y) →
      Core maxFd a (setTgt { s1 with changed := getNext (s1.tgt x).backend } x { s1.tgt x with backend := -1 }) kv1 xs := by
    intro s1 kv1 ht ho hlg hok hother
    have htx : ∀ y, (setTgt { s1 with changed := getNext (s1.tgt x).backend } x { s1.tgt x with backend := -1 }).tgt y =
        if y = x then { s.tgt x with backend := -1 } else s.tgt y := by
      intro y
      simp only [setTgt, ht, Function.update_apply]
    have hused : a.used x = true := (h.used x (by rw [hr]; rfl)).2.1
    refine ⟨?_, hnd.2, fun fd hfd => h.mem fd (by simp [hfd]), ?_, ?_, ?_, ho.trans h.opn, h.used, ?_, ?_, hlg.trans h.log⟩
    · refine Chain.congr (tgt := s.tgt) ?_ ?_
      · intro y hy
        rw [htx, if_neg (fun e : y = x => hnd.1 (e ▸ hy))]
      · simp only [setTgt, ht, hb, getNext_build (hch.small hm)]
        exact hch
    · intro fd hfd hs
      rw [htx]
      by_cases e : fd = x
      · rw [if_pos e]
      · rw [if_neg e]
        exact h.off fd (by simp [e, hfd]) hs
    · intro fd hn
      rw [htx, if_neg (fun e => by rw [e, hr] at hn; simp at hn)]
      exact h.unreg fd hn
    · intro fd r' hr'
      rw [htx]
      by_cases e : fd = x
      · subst e
        rw [if_pos rfl]
        exact h.reg fd r' hr'
      · rw [if_neg e]
        exact h.reg fd r' hr'
    · intro fd hs
      rw [htx]
      by_cases e : fd = x
      · subst e
        rw [if_pos rfl]
        simpa [known] using hok
      · rw [if_neg e, hother fd e]
        exact h.kern fd hs
    · intro fd hu
      rw [hother fd (fun e => by rw [e, hused] at hu; simp at hu)]
      exact h.fresh fd hu
  unfold tell
  by_cases heq : (s.tgt x).events.signExtend 32 = getOld (s.tgt x).backend
  · rw [if_neg (by simpa using heq)]
    refine ⟨s, cl, kv, rfl, hk, hl, rfl, rfl, fin s kv rfl rfl rfl ?_ fun _ _ => rfl⟩
    rw [heq]
    exact hkn
  · rw [if_pos heq, putBoth_eq hl]
    have hlen := changes_length x ((s.tgt x).events.signExtend 32) (getOld (s.tgt x).backend)
    have hka : keventAll s.opn s.k (cl ++ changes x ((s.tgt x).events.signExtend 32) (getOld (s.tgt x).backend)) = some kv1 := by
      rw [keventAll_append, hk]
      exact hk1
    simp only [Option.bind_some, flushFull]
    split
    · rw [hka]
      exact ⟨{ s with k := kv1 }, [], kv1, rfl, rfl, by simp, rfl, rfl, fin { s with k := kv1 } kv1 rfl rfl rfl hok hother⟩
    · rename_i hlt
      exact ⟨s, _, kv1, rfl, hka, by omega, rfl, rfl, fin s kv1 rfl rfl rfl hok hother⟩

theorem applyLoop_core {maxFd : Nat} (hm : maxFd ≤ 2 ^ 23) {a : AS} : ∀ {L : List Nat} {n : Nat} {s : St} {kv : Kern}
    {cl : List Change}, L.length < n → Core maxFd a s kv L → keventAll s.opn s.k cl = some kv → cl.length ≤ 254 →
    ∃ s' cl' kv', applyLoop maxFd n s cl = some (s', cl') ∧ keventAll s'.opn s'.k cl' = some kv' ∧ cl'.length ≤ 254 ∧
      Core maxFd a s' kv' []
  | [], n + 1, s, kv, cl, _, h, hk, hl => by
    refine ⟨s, cl, kv, ?_, hk, hl, h⟩
    unfold applyLoop
    rw [if_pos (show s.changed = -1 from h.chain)]
  | x :: xs, n + 1, s, kv, cl, hn, h, hk, hl => by
    obtain ⟨s1, cl1, kv1, ht, hk1, hl1, ht1, hc1, h1⟩ := tell_core hm h hk hl
    obtain ⟨hc, hx, _⟩ := h.chain
    have hnat : (BitVec.ofNat 32 x).toNat = x := by
      rw [BitVec.toNat_ofNat, Nat.mod_eq_of_lt (by omega)]
    obtain ⟨s', cl', kv', h2⟩ := applyLoop_core hm (n := n) (by simpa using hn) h1 (cl := cl1) hk1 hl1
    refine ⟨s', cl', kv', ?_, h2.2⟩
    unfold applyLoop
    rw [if_neg (fun e => by
      have := congrArg BitVec.toNat (hc.symm.trans e)
      rw [hnat] at this
      have h3 : (-1 : BitVec 32).toNat = 4294967295 := by decide
      omega)]
    simp only [hc, hnat]
    rw [if_pos hx, ht]
    simp only [Option.bind_some]
    exact h2.1

theorem Core.length {maxFd : Nat} {a : AS} {s : St} {kv : Kern} {L : List Nat} (h : Core maxFd a s kv L) :
    L.length ≤ maxFd := by
  have := (h.nodup.subperm (l₂ := List.range maxFd) fun x hx => List.mem_range.2 (h.chain.ne x hx).2).length_le
  simpa using this

theorem applyAll_core {maxFd : Nat} (hm : maxFd ≤ 2 ^ 23) {a : AS} {s : St} {L : List Nat} (h : Core maxFd a s s.k L) :
    ∃ s', applyAll maxFd s = some s' ∧ Core maxFd a s' s'.k [] := by
  obtain ⟨s', cl', kv', h1, h2, h3, h4⟩ := applyLoop_core hm (n := maxFd + 2) (by have := h.length; omega) h (cl := []) rfl
    (by simp)
  refine ⟨{ s' with k := kv' }, ?_, h4.chain, h4.nodup, h4.mem, h4.off, h4.unreg, h4.reg, h4.opn, h4.used, h4.kern, h4.fresh,
    h4.log⟩
  unfold applyAll
  rw [h1]
  simp only [Option.bind_some, h2, Option.map_some]

theorem pollBegin_core {maxFd : Nat} (hm : maxFd ≤ 2 ^ 23) {a : AS} {s : St} {L : List Nat} (h : Core maxFd a s s.k L) :
    ∃ s', pollBegin maxFd s = some s' ∧ Core maxFd a s' s'.k [] := by
  obtain ⟨s', cl', kv', h1, h2, h3, h4⟩ := applyLoop_core hm (n := maxFd + 2) (by have := h.length; omega) h (cl := []) rfl
    (by simp)
  refine ⟨{ s' with k := kv' }, ?_, h4.chain, h4.nodup, h4.mem, h4.off, h4.unreg, h4.reg, h4.opn, h4.used, h4.kern, h4.fresh,
    h4.log⟩
  unfold pollBegin
  rw [h1]
  simp only [Option.map_some, keventSome_eq _ _ _ _ h2]

/-- Setting the events of a registered descriptor. -/
theorem enqueue_core {maxFd : Nat} {a : AS} {s : St} {kv : Kern} {L : List Nat} (h : Core maxFd a s kv L) {fd : Nat} {r : Reg}
    (hr : a.reg fd = some r) (events : BitVec 32) (rw' : BitVec 2) (he : (events &&& RW).setWidth 8 = (rw'.setWidth 8 : BitVec 8)) :
    ∃ L', Core maxFd { a with reg := Function.update a.reg fd (some { r with rw := rw' }) } (enqueue s fd events) kv L' := by
  have hreg := h.reg fd r hr
  have hu := h.used fd (by rw [hr]; rfl)
  have hkn := h.kern fd (by rw [hr]; rfl)
  have hsome : ∀ y, (Function.update a.reg fd (some { r with rw := rw' }) y).isSome = (a.reg y).isSome := by
    intro y
    rw [Function.update_apply]
    split
    · rename_i e; rw [e, hr]; rfl
    · rfl
  -- the parts common to both cases
  have fin : ∀ (s1 : St) (L' : List Nat), s1.opn = s.opn → s1.log = s.log → Chain maxFd s1.tgt s1.changed L' → L'.Nodup →
      (∀ y, y ∈ L' ↔ y = fd ∨ y ∈ L) → (∀ y, y ≠ fd → s1.tgt y = s.tgt y) → (s1.tgt fd).reg = true →
      (s1.tgt fd).events = (events &&& RW).setWidth 8 → (s1.tgt fd).cb = (s.tgt fd).cb → known (s1.tgt fd) = known (s.tgt fd) →
      Core maxFd { a with reg := Function.update a.reg fd (some { r with rw := rw' }) } s1 kv L' := by
    intro s1 L' ho hl hc hn hmem hy h1 h2 h3 h4
    refine ⟨hc, hn, ?_, ?_, ?_, ?_, ho.trans h.opn, ?_, ?_, h.fresh, hl.trans h.log⟩
    · intro y hyL
      rw [hsome]
      rcases (hmem y).1 hyL with rfl | h
      · rw [hr]; rfl
      · exact ‹Core _ _ _ _ _›.mem y h
    · intro y hyL hs
      rw [hsome] at hs
      have : y ≠ fd := fun e => hyL ((hmem y).2 (Or.inl e))
      rw [hy y this]
      exact h.off y (fun hL => hyL ((hmem y).2 (Or.inr hL))) hs
    · intro y hn
      simp only [Function.update_apply] at hn
      split at hn
      · simp at hn
      · rename_i e
        rw [hy y e]
        exact h.unreg y hn
    · intro y r' hr'
      simp only [Function.update_apply] at hr'
      split at hr'
      · rename_i e
        injection hr' with hr'
        subst e hr'
        exact ⟨h1, h2.trans he, h3.trans hreg.2.2⟩
      · rename_i e
        rw [hy y e]
        exact h.reg y r' hr'
    · intro y hs
      rw [hsome] at hs
      exact h.used y hs
    · intro y hs
      rw [hsome] at hs
      by_cases e : y = fd
      · subst e
        rw [h4]
        exact hkn
      · rw [hy y e]
        exact h.kern y hs
  unfold enqueue
  by_cases hb : (s.tgt fd).backend = -1
  · have hnL : fd ∉ L := fun hL => (h.chain.ne fd hL).1 hb
    rw [if_pos hb]
    refine ⟨fd :: L, fin _ _ rfl rfl ?_ (List.nodup_cons.2 ⟨hnL, h.nodup⟩) (by simp) ?_ ?_ ?_ ?_ ?_⟩
    · refine ⟨rfl, hu.2.2, s.changed, (s.tgt fd).events, by simp [setTgt], ?_⟩
      refine Chain.congr (tgt := s.tgt) ?_ h.chain
      intro y hy
      have : y ≠ fd := fun e => hnL (e ▸ hy)
      simp [setTgt, this]
    · intro y hy
      simp [setTgt, hy]
    · simpa [setTgt] using hreg.1
    · simp [setTgt]
    · simp [setTgt]
    · simp only [setTgt, Function.update_self, known, hb, if_neg (build_ne _ _), getOld_build, if_true]
      rw [hreg.2.1]
      have : ∀ v : BitVec 2, BitVec.setWidth 32 (v.setWidth 8 : BitVec 8) = (v.setWidth 8 : BitVec 8).signExtend 32 := by decide
      exact this _
  · have hL : fd ∈ L := by
      by_contra hn
      exact hb (h.off fd hn (by rw [hr]; rfl))
    rw [if_neg hb]
    refine ⟨L, fin _ _ rfl rfl ?_ h.nodup ?_ ?_ ?_ ?_ ?_ ?_⟩
    · refine Chain.congr (tgt := s.tgt) ?_ h.chain
      intro y _
      by_cases e : y = fd
      · subst e
        simp [setTgt]
      · simp [setTgt, e]
    · intro y
      exact ⟨Or.inr, fun h => h.elim (fun e => e ▸ hL) id⟩
    · intro y hy
      simp [setTgt, hy]
    · simpa [setTgt] using hreg.1
    · simp [setTgt]
    · simp [setTgt]
    · simp only [setTgt, Function.update_self, known, if_neg hb]

theorem update_same {α β : Type} [DecidableEq α] (f : α → β) (x : α) (v : β) (h : f x = v) : Function.update f x v = f := by
  subst h
  exact Function.update_eq_self x f

/-- Registering a fresh descriptor without events. -/
theorem fresh_core {maxFd : Nat} {a : AS} {s : St} {L : List Nat} (h : Core maxFd a s s.k L) {fd cb : Nat} (hfd : fd < maxFd)
    (ho : a.opn fd = true) (hu : a.used fd = false) :
    Core maxFd { a with reg := Function.update a.reg fd (some ⟨cb, 0⟩), used := Function.update a.used fd true }
      (setTgt s fd ⟨true, 0, -1, cb⟩) s.k L := by
  have hnone : a.reg fd = none := by
    cases hr : a.reg fd with
    | none => rfl
    | some r => have := (h.used fd (by rw [hr]; rfl)).2.1; rw [hu] at this; simp at this
  have hnL : fd ∉ L := fun hL => by have := h.mem fd hL; rw [hnone] at this; simp at this
  refine ⟨?_, h.nodup, ?_, ?_, ?_, ?_, h.opn, ?_, ?_, ?_, h.log⟩
  · refine Chain.congr (tgt := s.tgt) ?_ h.chain
    intro y hy
    have : y ≠ fd := fun e => hnL (e ▸ hy)
    simp [setTgt, this]
  · intro y hy
    have : y ≠ fd := fun e => hnL (e ▸ hy)
    simpa [this] using h.mem y hy
  · intro y hy hs
    by_cases e : y = fd
    · subst e; simp [setTgt]
    · simp only [setTgt, Function.update_of_ne e] at hs ⊢
      exact h.off y hy hs
  · intro y hn
    by_cases e : y = fd
    · subst e; simp at hn
    · simp only [setTgt, Function.update_of_ne e] at hn ⊢
      exact h.unreg y hn
  · intro y r hr
    by_cases e : y = fd
    · subst e
      simp only [Function.update_self, Option.some.injEq] at hr
      subst hr
      simp [setTgt]
    · simp only [setTgt, Function.update_of_ne e] at hr ⊢
      exact h.reg y r hr
  · intro y hs
    by_cases e : y = fd
    · subst e
      exact ⟨ho, by simp, hfd⟩
    · simp only [Function.update_of_ne e] at hs ⊢
      exact h.used y hs
  · intro y hs
    by_cases e : y = fd
    · subst e
      rw [h.fresh y hu]
      simp only [setTgt, Function.update_self, known, if_true]
      exact ⟨Or.inl (by decide), ⟨(fun h => by cases h), fun h => absurd h (by decide)⟩,
        ⟨(fun h => by cases h), fun h => absurd h (by decide)⟩⟩
    · simp only [setTgt, Function.update_of_ne e] at hs ⊢
      exact h.kern y hs
  · intro y hy
    by_cases e : y = fd
    · subst e; simp at hy
    · simp only [Function.update_of_ne e] at hy
      exact h.fresh y hy

/-- Unregistering a descriptor without pending change. -/
theorem unreg_core {maxFd : Nat} {a : AS} {s : St} {L : List Nat} (h : Core maxFd a s s.k L) {fd : Nat} (hL : fd ∉ L) :
    Core maxFd { a with reg := Function.update a.reg fd none } (setTgt s fd { s.tgt fd with reg := false }) s.k L := by
  have hs' : ∀ y, (Function.update a.reg fd none y).isSome → y ≠ fd ∧ (a.reg y).isSome := by
    intro y hs
    by_cases e : y = fd
    · subst e; simp at hs
    · rw [Function.update_of_ne e] at hs
      exact ⟨e, hs⟩
  refine ⟨?_, h.nodup, ?_, ?_, ?_, ?_, h.opn, ?_, ?_, h.fresh, h.log⟩
  · refine Chain.congr (tgt := s.tgt) ?_ h.chain
    intro y hy
    have : y ≠ fd := fun e => hL (e ▸ hy)
    simp [setTgt, this]
  · intro y hy
    have : y ≠ fd := fun e => hL (e ▸ hy)
    simpa [this] using h.mem y hy
  · intro y hy hs
    obtain ⟨e, hs⟩ := hs' y hs
    simp only [setTgt, Function.update_of_ne e]
    exact h.off y hy hs
  · intro y hn
    by_cases e : y = fd
    · subst e; simp [setTgt]
    · simp only [setTgt, Function.update_of_ne e] at hn ⊢
      exact h.unreg y hn
  · intro y r hr
    obtain ⟨e, _⟩ := hs' y (by simp only at hr; rw [hr]; rfl)
    simp only [setTgt, Function.update_of_ne e] at hr ⊢
    exact h.reg y r hr
  · intro y hs
    exact h.used y (hs' y hs).2
  · intro y hs
    obtain ⟨e, hs⟩ := hs' y hs
    simp only [setTgt, Function.update_of_ne e]
    exact h.kern y hs

theorem updateRest_del (maxFd : Nat) (s : St) (fd : Nat) :
    updateRest maxFd s fd DEL = if (s.tgt fd).backend = -1 then some s else applyAll maxFd (enqueue s fd DEL) := by
  unfold updateRest
  simp only [if_true]
  rw [if_pos (show DEL &&& DEL ≠ 0 by decide)]

theorem updateRest_ne (maxFd : Nat) (s : St) (fd : Nat) {events : BitVec 32} (h : events ≠ DEL) (h' : events &&& DEL = 0) :
    updateRest maxFd s fd events =
      if events &&& RW = (s.tgt fd).events.signExtend 32 then some s else some (enqueue s fd events) := by
  unfold updateRest
  simp only [if_neg h, if_neg (not_not.2 h')]

theorem low_two (event : BitVec 32) : (event &&& RW).setWidth 8 = ((event.setWidth 2).setWidth 8 : BitVec 8) := by
  apply BitVec.eq_of_getLsbD_eq
  intro i hi
  simp only [BitVec.getLsbD_setWidth, BitVec.getLsbD_and]
  have : RW.getLsbD i = decide (i < 2) := by interval_cases i <;> decide
  rw [this, Bool.and_comm (event.getLsbD i)]

theorem small_event {event : BitVec 32} (h : event &&& 3 = event) : event = 0 ∨ event = 1 ∨ event = 2 ∨ event = 3 := by
  have h1 : event.toNat ≤ 3 := by
    rw [← h, BitVec.toNat_and]
    exact Nat.and_le_right
  have h2 : event = BitVec.ofNat 32 event.toNat := by simp
  rw [h2]
  generalize event.toNat = n at h1
  interval_cases n <;> decide

theorem op_inv {maxFd : Nat} (hm : maxFd ≤ 2 ^ 23) {a a' : AS} {s : St} (h : Inv maxFd a s) {o : Op}
    (hs : specOp maxFd a o = some a') : ∃ s', runOp maxFd s o = some s' ∧ Inv maxFd a' s' := by
  obtain ⟨L, h⟩ := h
  cases o with
  | add fd event cb =>
    simp only [specOp] at hs
    simp only [runOp]
    by_cases hfd : fd < maxFd
    · rw [if_pos hfd] at hs ⊢
      split at hs
      · rename_i hp
        injection hs with hs
        subst hs
        obtain ⟨hp, ho, hu⟩ := hp
        have hc := fresh_core h (cb := cb) hfd ho hu
        have hadd : (event ||| ADD) &&& ADD ≠ 0 := by
          intro e
          have := congrArg (·.getLsbD 30) e
          simp [ADD] at this
        have hdel : (event ||| ADD) ≠ DEL := by
          intro e
          have := congrArg (·.getLsbD 30) e
          simp [ADD, DEL] at this
        have hdel' : (event ||| ADD) &&& DEL = 0 := by
          have h1 := hp.1
          have h2 : ADD &&& DEL = 0 := by decide
          apply BitVec.eq_of_getLsbD_eq
          intro i hi
          have h1 := congrArg (·.getLsbD i) h1
          have h2 := congrArg (·.getLsbD i) h2
          simp only [BitVec.getLsbD_and, BitVec.getLsbD_or] at h1 h2 ⊢
          rw [Bool.and_or_distrib_right, h1, h2]
          simp
        have hrw : (event ||| ADD) &&& RW = event &&& RW := by
          have h2 : ADD &&& RW = 0 := by decide
          apply BitVec.eq_of_getLsbD_eq
          intro i hi
          have h2 := congrArg (·.getLsbD i) h2
          simp only [BitVec.getLsbD_and, BitVec.getLsbD_or] at h2 ⊢
          rw [Bool.and_or_distrib_right, h2]
          simp
        have hw := low_two event
        unfold updateInternal
        rw [if_pos (by simp [setTgt]), if_pos hadd]
        simp only [setTgt, Function.update_self, Function.update_idem]
        rw [updateRest_ne _ _ _ hdel hdel', hrw]
        by_cases hz : event &&& RW = 0
        · rw [if_pos (by simpa using hz)]
          have h2 : event.setWidth 2 = 0 := by
            rw [hz] at hw
            have : ∀ v : BitVec 2, (0 : BitVec 32).setWidth 8 = (v.setWidth 8 : BitVec 8) → v = 0 := by decide
            exact this _ hw
          rw [h2]
          exact ⟨_, rfl, L, hc⟩
        · rw [if_neg (by simpa using hz)]
          obtain ⟨L', hc'⟩ := enqueue_core hc (fd := fd) (r := ⟨cb, 0⟩) (by simp) (event ||| ADD) (event.setWidth 2)
            (by rw [hrw]; exact hw)
          refine ⟨_, rfl, L', ?_⟩
          simp only [Function.update_idem] at hc'
          have hk : ∀ s1 : St, (enqueue s1 fd (event ||| ADD)).k = s1.k := by
            intro s1
            unfold enqueue
            split <;> rfl
          rw [hk]
          exact hc'
      · simp at hs
    · rw [if_neg hfd] at hs ⊢
      injection hs with hs
      subst hs
      exact ⟨s, rfl, L, h⟩
  | del fd =>
    simp only [specOp] at hs
    simp only [runOp]
    split at hs
    · rename_i hfd
      injection hs with hs
      subst hs
      rw [if_pos hfd]
      cases hr : a.reg fd with
      | none =>
        rw [if_neg (by rw [h.unreg fd hr]; simp), update_same _ _ _ hr]
        exact ⟨s, rfl, L, h⟩
      | some r =>
        rw [if_pos (h.reg fd r hr).1]
        unfold updateInternal
        rw [if_pos (h.reg fd r hr).1, if_neg (by decide)]
        rw [updateRest_del]
        by_cases hb : (s.tgt fd).backend = -1
        · rw [if_pos hb]
          exact ⟨_, rfl, L, unreg_core h fun hL => (h.chain.ne fd hL).1 hb⟩
        · rw [if_neg hb]
          obtain ⟨L', hc⟩ := enqueue_core h hr DEL 0 (by decide)
          obtain ⟨s', he, hc'⟩ := applyAll_core hm (s := enqueue s fd DEL) (by
            have : (enqueue s fd DEL).k = s.k := by
              unfold enqueue
              rw [if_neg hb]
              rfl
            rw [this]
            exact hc)
          rw [he]
          have := unreg_core hc' (fd := fd) (by simp)
          simp only [Function.update_idem] at this
          exact ⟨_, rfl, [], this⟩
    · simp at hs
  | setEvent fd event =>
    simp only [specOp] at hs
    simp only [runOp]
    split at hs
    · rename_i hfd
      rw [if_pos hfd.1]
      obtain ⟨r, hr, rfl⟩ := Option.map_eq_some_iff.1 hs
      have hev : event = 0 ∨ event = 1 ∨ event = 2 ∨ event = 3 := small_event hfd.2
      have hreg := h.reg fd r hr
      by_cases heq : (s.tgt fd).events.signExtend 32 = event
      · rw [if_neg (not_not.2 heq)]
        refine ⟨s, rfl, L, ?_⟩
        have : event.setWidth 2 = r.rw := by
          rw [← heq, hreg.2.1]
          have : ∀ v : BitVec 2, BitVec.setWidth 2 ((v.setWidth 8 : BitVec 8).signExtend 32) = v := by decide
          exact this _
        rw [this, update_same _ _ _ hr]
        exact h
      · rw [if_pos heq]
        have e1 : event &&& ADD = 0 := by rcases hev with rfl | rfl | rfl | rfl <;> decide
        have e2 : event ≠ DEL := by rcases hev with rfl | rfl | rfl | rfl <;> decide
        have e3 : event &&& DEL = 0 := by rcases hev with rfl | rfl | rfl | rfl <;> decide
        have e4 : event &&& RW = event := hfd.2
        unfold updateInternal
        rw [if_pos hreg.1, if_neg (not_not.2 e1)]
        rw [updateRest_ne _ _ _ e2 e3, e4, if_neg (fun e => heq e.symm)]
        obtain ⟨L', hc⟩ := enqueue_core h hr event (event.setWidth 2) (by
          rcases hev with rfl | rfl | rfl | rfl <;> decide)
        refine ⟨_, rfl, L', ?_⟩
        have : (enqueue s fd event).k = s.k := by
          unfold enqueue
          split <;> rfl
        rw [this]
        exact hc
    · simp at hs
  | open_ fd =>
    simp only [specOp, Option.some.injEq] at hs
    subst hs
    refine ⟨_, rfl, L, h.chain, h.nodup, h.mem, h.off, h.unreg, h.reg, ?_, ?_, h.kern, h.fresh, h.log⟩
    · simp only [h.opn]
    · intro y hy
      have := h.used y hy
      refine ⟨?_, this.2⟩
      simp only [Function.update_apply]
      split
      · rfl
      · exact this.1
  | close fd =>
    simp only [specOp] at hs
    split at hs
    · rename_i hn
      injection hs with hs
      subst hs
      have hne : ∀ y, (a.reg y).isSome → y ≠ fd := by
        intro y hy e
        subst e
        rw [Option.isNone_iff_eq_none.1 hn] at hy
        simp at hy
      refine ⟨_, rfl, L, h.chain, h.nodup, h.mem, h.off, h.unreg, h.reg, ?_, ?_, ?_, ?_, h.log⟩
      · simp only [h.opn]
      · intro y hy
        simp only [Function.update_of_ne (hne y hy)]
        exact h.used y hy
      · intro y hy
        simp only [Function.update_of_ne (hne y hy)]
        exact h.kern y hy
      · intro y hy
        by_cases e : y = fd
        · subst e; simp
        · simp only [Function.update_of_ne e] at hy ⊢
          exact h.fresh y hy
    · simp at hs

theorem ops_inv {maxFd : Nat} (hm : maxFd ≤ 2 ^ 23) : ∀ {os : List Op} {a a' : AS} {s : St}, Inv maxFd a s →
    specOps maxFd a os = some a' → ∃ s', runOps maxFd s os = some s' ∧ Inv maxFd a' s'
  | [], a, a', s, h, hs => by
    simp only [specOps, Option.some.injEq] at hs
    subst hs
    exact ⟨s, rfl, h⟩
  | o :: os, a, a', s, h, hs => by
    simp only [specOps] at hs
    obtain ⟨a1, h1, h2⟩ := Option.bind_eq_some_iff.1 hs
    obtain ⟨s1, e1, i1⟩ := op_inv hm h h1
    obtain ⟨s2, e2, i2⟩ := ops_inv hm i1 h2
    refine ⟨s2, ?_, i2⟩
    simp only [runOps, e1, Option.bind_some]
    exact e2

theorem dispatch_inv {maxFd : Nat} (hm : maxFd ≤ 2 ^ 23) {cbs : Cbs} {a a' : AS} {s : St} (h : Inv maxFd a s) {e : Event}
    (hs : specDispatch maxFd cbs a e = some a') : ∃ s', dispatch maxFd cbs s e = some s' ∧ Inv maxFd a' s' := by
  obtain ⟨L, h⟩ := h
  unfold specDispatch at hs
  split at hs
  · simp at hs
  · rename_i heof
    have hrev : revents e.f e.eof = e.f.event := by
      unfold revents
      rw [if_neg heof]
      cases e.f <;> rfl
    unfold dispatch
    cases hr : a.reg e.fd with
    | none =>
      rw [hr] at hs
      simp only [Option.some.injEq] at hs
      subst hs
      rw [if_neg (by rw [h.unreg _ hr]; simp)]
      exact ⟨s, rfl, L, h⟩
    | some r =>
      rw [hr] at hs
      simp only at hs
      have hreg := h.reg _ r hr
      rw [if_pos hreg.1]
      simp only [hrev, hreg.2.2, h.log]
      refine ops_inv hm ?_ hs
      exact ⟨L, h.chain, h.nodup, h.mem, h.off, h.unreg, h.reg, h.opn, h.used, h.kern, h.fresh, rfl⟩

theorem dispatchAll_inv {maxFd : Nat} (hm : maxFd ≤ 2 ^ 23) {cbs : Cbs} : ∀ {es : List Event} {a a' : AS} {s : St},
    Inv maxFd a s → specPoll maxFd cbs a es = some a' → ∃ s', dispatchAll maxFd cbs s es = some s' ∧ Inv maxFd a' s'
  | [], a, a', s, h, hs => by
    simp only [specPoll, Option.some.injEq] at hs
    subst hs
    exact ⟨s, rfl, h⟩
  | o :: os, a, a', s, h, hs => by
    simp only [specPoll] at hs
    obtain ⟨a1, h1, h2⟩ := Option.bind_eq_some_iff.1 hs
    obtain ⟨s1, e1, i1⟩ := dispatch_inv hm h h1
    obtain ⟨s2, e2, i2⟩ := dispatchAll_inv hm i1 h2
    refine ⟨s2, ?_, i2⟩
    simp only [dispatchAll, e1, Option.bind_some]
    exact e2

theorem step_inv {maxFd : Nat} (hm : maxFd ≤ 2 ^ 23) {cbs : Cbs} {a a' : AS} {s : St} (h : Inv maxFd a s) {e : H}
    (hs : specStep maxFd cbs a e = some a') : ∃ s', step maxFd cbs s e = some s' ∧ Inv maxFd a' s' := by
  cases e with
  | op o => exact op_inv hm h hs
  | poll batch =>
    obtain ⟨L, h⟩ := h
    obtain ⟨s1, e1, h1⟩ := pollBegin_core hm h
    simp only [step, poll, e1, Option.bind_some]
    exact dispatchAll_inv hm ⟨[], h1⟩ hs

theorem run_inv {maxFd : Nat} (hm : maxFd ≤ 2 ^ 23) {cbs : Cbs} : ∀ {hs : List H} {a a' : AS} {s : St}, Inv maxFd a s →
    specRun maxFd cbs a hs = some a' → ∃ s', run maxFd cbs s hs = some s' ∧ Inv maxFd a' s'
  | [], a, a', s, h, hs => by
    simp only [specRun, Option.some.injEq] at hs
    subst hs
    exact ⟨s, rfl, h⟩
  | o :: os, a, a', s, h, hs => by
    simp only [specRun] at hs
    obtain ⟨a1, h1, h2⟩ := Option.bind_eq_some_iff.1 hs
    obtain ⟨s1, e1, i1⟩ := step_inv hm h h1
    obtain ⟨s2, e2, i2⟩ := run_inv hm i1 h2
    refine ⟨s2, ?_, i2⟩
    simp only [run, e1, Option.bind_some]
    exact e2

theorem run_append (maxFd : Nat) (cbs : Cbs) : ∀ (hs hs' : List H) (s : St),
    run maxFd cbs s (hs ++ hs') = (run maxFd cbs s hs).bind fun s => run maxFd cbs s hs'
  | [], _, _ => rfl
  | h :: hs, hs', s => by
    simp only [List.cons_append, run]
    cases step maxFd cbs s h with
    | none => rfl
    | some s1 => exact run_append maxFd cbs hs hs' s1

/-- After the pending changes are told, the kernel's filters are determined by the registration. -/
theorem told {maxFd : Nat} {a : AS} {s : St} (h : Core maxFd a s s.k []) {fd : Nat} {r : Reg} (hr : a.reg fd = some r) :
    (s.k fd .read = some true ↔ r.rw.getLsbD 0 = true) ∧ (s.k fd .write = some true ↔ r.rw = 2) := by
  have hk := h.kern fd (by rw [hr]; rfl)
  have hb := h.off fd (by simp) (by rw [hr]; rfl)
  unfold known at hk
  rw [if_pos hb, (h.reg fd r hr).2.1] at hk
  refine ⟨hk.2.1.trans ?_, hk.2.2.trans ?_⟩
  · generalize r.rw = v
    revert v
    decide
  · generalize r.rw = v
    revert v
    decide

/-- Callbacks do not touch a descriptor. -/
def Op.touches (fd : Nat) : Op → Prop
  | .add x _ _ => x = fd
  | .del x => x = fd
  | .setEvent x _ => x = fd
  | .open_ _ => False
  | .close x => x = fd

theorem specOp_keep {maxFd : Nat} {a a' : AS} {o : Op} {fd : Nat} (ht : ¬ o.touches fd) (h : specOp maxFd a o = some a') :
    a'.reg fd = a.reg fd ∧ a'.log = a.log := by
  cases o with
  | add x e cb =>
    have : fd ≠ x := fun e => ht e.symm
    simp only [specOp] at h
    split at h
    · split at h
      · injection h with h; subst h; simp [this]
      · simp at h
    · injection h with h; subst h; simp
  | del x =>
    have : fd ≠ x := fun e => ht e.symm
    simp only [specOp] at h
    split at h
    · injection h with h; subst h; simp [this]
    · simp at h
  | setEvent x e =>
    have : fd ≠ x := fun e => ht e.symm
    simp only [specOp] at h
    split at h
    · obtain ⟨r, _, rfl⟩ := Option.map_eq_some_iff.1 h
      simp [this]
    · simp at h
  | open_ x => simp only [specOp, Option.some.injEq] at h; subst h; simp
  | close x =>
    simp only [specOp] at h
    split at h
    · injection h with h; subst h; simp
    · simp at h

theorem specOp_log {maxFd : Nat} {a a' : AS} {o : Op} (h : specOp maxFd a o = some a') : a'.log = a.log := by
  cases o <;> simp only [specOp] at h
  · split at h
    · split at h
      · injection h with h; subst h; rfl
      · simp at h
    · injection h with h; subst h; rfl
  · split at h
    · injection h with h; subst h; rfl
    · simp at h
  · split at h
    · obtain ⟨r, _, rfl⟩ := Option.map_eq_some_iff.1 h; rfl
    · simp at h
  · injection h with h; subst h; rfl
  · split at h
    · injection h with h; subst h; rfl
    · simp at h

theorem specOps_keep {maxFd : Nat} : ∀ {os : List Op} {a a' : AS}, specOps maxFd a os = some a' →
    a'.log = a.log ∧ ∀ fd, (∀ o ∈ os, ¬ o.touches fd) → a'.reg fd = a.reg fd
  | [], a, a', h => by
    simp only [specOps, Option.some.injEq] at h
    subst h
    simp
  | o :: os, a, a', h => by
    simp only [specOps] at h
    obtain ⟨a1, h1, h2⟩ := Option.bind_eq_some_iff.1 h
    have ih := specOps_keep h2
    refine ⟨ih.1.trans (specOp_log h1), fun fd hq => ?_⟩
    rw [ih.2 fd fun o ho => hq o (by simp [ho]), (specOp_keep (hq o (by simp)) h1).1]

theorem specPoll_new {maxFd : Nat} {cbs : Cbs} : ∀ {es : List Event} {a a' : AS}, specPoll maxFd cbs a es = some a' →
    ∃ new, a'.log = a.log ++ new ∧ ∀ c ∈ new, (∀ n c', ∀ o ∈ cbs n c', ¬ o.touches c.fd) →
      ∃ e ∈ es, e.fd = c.fd ∧ e.f.event = c.revents ∧ ∃ r, a.reg c.fd = some r ∧ r.cb = c.cb
  | [], a, a', h => by
    simp only [specPoll, Option.some.injEq] at h
    subst h
    exact ⟨[], by simp, by simp⟩
  | e :: es, a, a', h => by
    simp only [specPoll] at h
    obtain ⟨a1, h1, h2⟩ := Option.bind_eq_some_iff.1 h
    obtain ⟨new, hn, hc⟩ := specPoll_new h2
    unfold specDispatch at h1
    split at h1
    · simp at h1
    · split at h1
      · injection h1 with h1
        subst h1
        exact ⟨new, hn, fun c hc' hq => by
          obtain ⟨e', he', hh⟩ := hc c hc' hq
          exact ⟨e', by simp [he'], hh⟩⟩
      · rename_i r hr
        obtain ⟨hl, hk⟩ := specOps_keep h1
        refine ⟨⟨e.fd, e.f.event, r.cb⟩ :: new, ?_, ?_⟩
        · rw [hn, hl]
          simp
        · intro c hc' hq
          rcases List.mem_cons.1 hc' with rfl | hc'
          · exact ⟨e, by simp, rfl, rfl, r, hr, rfl⟩
          · obtain ⟨e', he', h3, h4, r', h5, h6⟩ := hc c hc' hq
            refine ⟨e', by simp [he'], h3, h4, r', ?_, h6⟩
            rw [← h5, hk c.fd fun o ho => hq _ _ o ho]

end Verif.Kq
