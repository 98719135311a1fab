import Verif.Watch.Lemmas

/-!
# Which directory a change is reported for, and how many can be watched (C72, C73)
-/

namespace Verif.Watch

/-! ## Specification -/

/-- The directories as the user asked for them: number of the root, numbers and paths of those below. -/
def asked (w0 : Nat) (subs : List (Nat × Bytes)) (w : Nat) : Option Dir :=
  if w = w0 then some .root else (subs.lookup w).map .sub

/-- The kernel numbers watches `k`, `k + 1`, … -/
def number : Nat → List Bytes → List (Nat × Bytes)
  | _, [] => []
  | k, d :: l => (k, d) :: number (k + 1) l

/-! ## Helpers -/

/-- When the own entries are free, every directory gets the entry of its number. -/
theorem addSubs_own {p : Nat} : ∀ (l : List (Nat × Bytes)) (s : St), (s.slot p).used = true →
    (∀ x ∈ l, x.1 < s.size ∧ (s.slot x.1).used = false) → (l.map Prod.fst).Nodup →
    ∃ s', addSubs p l s = .ok s' ∧
      (∀ w d, l.lookup w = some d → (s'.slot w).used = true ∧ (s'.slot w).changes = false ∧ (s'.slot w).path = some d) ∧
      (∀ j, j ∉ l.map Prod.fst → j ≠ p → s'.slot j = s.slot j)
  | [], s, _, _, _ => ⟨s, rfl, fun _ _ h => (by cases h), fun _ _ _ => rfl⟩
  | (w, d) :: l, s, hp, hf, hn => by
    obtain ⟨h1, h2⟩ := hf (w, d) (by simp)
    obtain ⟨s1, e1⟩ := addDir_eq (p := p) false d (pick_own h1 h2)
    obtain ⟨i, ha⟩ := addDir_ok hp e1
    have hi : i = w := by
      have := ha.pick
      rw [pick_own h1 h2] at this
      cases this
      rfl
    subst hi
    simp only [List.map_cons, List.nodup_cons] at hn
    have hwp : ∀ x ∈ l, x.1 ≠ i := fun x hx e => hn.1 (by rw [← e]; exact List.mem_map_of_mem hx)
    have hpp : ∀ x ∈ l, x.1 ≠ p := fun x hx e => by
      have := (hf x (by simp [hx])).2
      rw [e, hp] at this
      cases this
    obtain ⟨s', e2, ho, hr⟩ := addSubs_own l s1 (by rw [ha.mon]; exact hp)
      (fun x hx => by
        have := hf x (by simp [hx])
        rw [ha.rest x.1 (hwp x hx) (hpp x hx), ha.size]
        exact this) hn.2
    refine ⟨s', by rw [addSubs, e1]; exact e2, ?_, ?_⟩
    · intro w' d' hl
      rw [List.lookup_cons] at hl
      by_cases hw : w' = i
      · subst hw
        simp at hl
        subst hl
        rw [hr w' hn.1 ha.ne, ha.new]
        exact ⟨rfl, rfl, rfl⟩
      · have : (w' == i) = false := by simpa using hw
        rw [this] at hl
        exact ho w' d' hl
    · intro j hj hjp
      simp only [List.map_cons, List.mem_cons, not_or] at hj
      rw [hr j hj.2 hjp, ha.rest j hj.1 hjp]

theorem handler_one (s : St) (r : Rec) (hr : r.Ok) (hn : Named r = true) :
    (∀ path, pathArg s r.wd r.name = .ok path → ∃ c, handler s r.bytes r.bytes.length = .ok [c] ∧ c.wd = r.wd.toNat ∧ c.path = path) ∧
    (pathArg s r.wd r.name = .ub → handler s r.bytes r.bytes.length = .ub) := by
  have hlen := r.bytes_length
  have hn' := hn
  simp only [Named, Bool.and_eq_true, decide_eq_true_eq] at hn'
  obtain ⟨hne, hkind⟩ := hn'
  have hpad := hr.2.2.1 hne
  have w1 : rd32 r.bytes 0 = .ok r.wd :=
    rd32_at (pre := []) (post := le32 r.mask ++ le32 r.cookie ++ le32 (BitVec.ofNat 32 (r.name.length + r.pad)) ++ r.name
      ++ List.replicate r.pad 0) (by simp [Rec.bytes, List.append_assoc]) rfl
  have w2 : rd32 r.bytes (0 + 4) = .ok r.mask :=
    rd32_at (pre := le32 r.wd) (post := le32 r.cookie ++ le32 (BitVec.ofNat 32 (r.name.length + r.pad)) ++ r.name
      ++ List.replicate r.pad 0) (by simp [Rec.bytes, List.append_assoc]) (by simp [le32])
  have w3 : rd32 r.bytes (0 + 12) = .ok (BitVec.ofNat 32 (r.name.length + r.pad)) :=
    rd32_at (pre := le32 r.wd ++ le32 r.mask ++ le32 r.cookie) (post := r.name
      ++ List.replicate r.pad 0) (by simp [Rec.bytes, List.append_assoc]) (by simp [le32])
  have hnn : (BitVec.ofNat 32 (r.name.length + r.pad)).toNat = r.name.length + r.pad := by
    rw [BitVec.toNat_ofNat, Nat.mod_eq_of_lt hr.2.2.2]
  have hstr : strAt r.bytes (0 + 16) = .ok r.name :=
    strAt_at (pre := le32 r.wd ++ le32 r.mask ++ le32 r.cookie ++ le32 (BitVec.ofNat 32 (r.name.length + r.pad)))
      (post := List.replicate (r.pad - 1) 0)
      (by
        obtain ⟨q, hq⟩ : ∃ q, r.pad = q + 1 := ⟨r.pad - 1, by omega⟩
        simp [Rec.bytes, List.append_assoc, hq, List.replicate_succ])
      (by simp [le32]) hr.1
  have hz : BitVec.ofNat 32 (r.name.length + r.pad) ≠ 0#32 := by
    intro e
    have := congrArg BitVec.toNat e
    rw [hnn] at this
    simp at this
    exact hne this.1
  have hlast : handlerLoop s r.bytes r.bytes.length r.bytes.length
      (0 + 16 + (BitVec.ofNat 32 (r.name.length + r.pad)).toNat) = .ok [] := by
    obtain ⟨q, hq⟩ : ∃ q, r.bytes.length = q + 1 := ⟨r.bytes.length - 1, by omega⟩
    rw [hnn]
    have : handlerLoop s r.bytes r.bytes.length (q + 1) (0 + 16 + (r.name.length + r.pad)) = .ok [] := by
      rw [handlerLoop, if_neg (by omega)]
    rw [← hq] at this
    exact this
  constructor
  · intro path hpa
    rw [handler, handlerLoop, if_pos (by omega), w1, w2, w3]
    simp only [Res.ok_bind]
    rw [if_pos ⟨hz, (action_ne_zero _).2 hkind⟩, hstr, hlast]
    simp only [Res.ok_bind, hpa]
    exact ⟨_, rfl, rfl, rfl⟩
  · intro hpa
    rw [handler, handlerLoop, if_pos (by omega), w1, w2, w3]
    simp only [Res.ok_bind]
    rw [if_pos ⟨hz, (action_ne_zero _).2 hkind⟩, hstr]
    simp only [Res.ok_bind, hpa, Res.ub_bind]

theorem lookup_isSome_of_mem {l : List (Nat × Bytes)} {w : Nat} (h : w ∈ l.map Prod.fst) : ∃ d, l.lookup w = some d := by
  induction l with
  | nil => simp at h
  | cons x l ih =>
    obtain ⟨v, d⟩ := x
    rw [List.lookup_cons]
    by_cases e : w = v
    · subst e; simp
    · have : (w == v) = false := by simpa using e
      rw [this]
      simp [e] at h
      exact ih (by simpa using h)

/-! ## C72 -/

/-- A monitor `p` in any table, a tree of directories and the numbers the kernel gives to their watches: if the table entries
of those numbers are free, all are watched, and any batch of records about them is reported with the right directories. -/
theorem watch_reports_partial (p w0 : Nat) (path0 : Bytes) (subs : List (Nat × Bytes)) (s : St)
    (hp : (s.slot p).used = true) (hnd : (w0 :: subs.map Prod.fst).Nodup)
    (hfree : ∀ w ∈ w0 :: subs.map Prod.fst, w < s.size ∧ w < 2 ^ 31 ∧ (s.slot w).used = false) :
    ∃ s', addWatch p w0 path0 subs s = .ok s' ∧
      ∀ (rs : List Rec) (junk : Bytes), (∀ r ∈ rs, r.Ok) →
        (∀ r ∈ rs, Named r = true → r.wd.toNat ∈ w0 :: subs.map Prod.fst) →
        ∃ cs, handler s' (rs.flatMap Rec.bytes ++ junk) (rs.flatMap Rec.bytes).length = .ok cs ∧
          List.Forall₂ (Reports (asked w0 subs)) (rs.filter Named) cs := by
  obtain ⟨h1, _, h2⟩ := hfree w0 (by simp)
  obtain ⟨s1, e1⟩ := addDir_eq (p := p) true path0 (pick_own h1 h2)
  obtain ⟨i, ha⟩ := addDir_ok hp e1
  have hi : i = w0 := by
    have := ha.pick
    rw [pick_own h1 h2] at this
    cases this
    rfl
  subst hi
  rw [List.nodup_cons] at hnd
  have hfr : ∀ x ∈ subs, x.1 < s1.size ∧ (s1.slot x.1).used = false := by
    intro x hx
    have hm : x.1 ∈ subs.map Prod.fst := List.mem_map_of_mem hx
    obtain ⟨a, _, b⟩ := hfree x.1 (by simp only [List.mem_cons]; exact .inr hm)
    rw [ha.size, ha.rest x.1 (fun e => hnd.1 (e ▸ hm)) (fun e => by rw [e, hp] at b; cases b)]
    exact ⟨a, b⟩
  obtain ⟨s', e2, ho, hr⟩ := addSubs_own subs s1 (by rw [ha.mon]; exact hp) hfr hnd.2
  refine ⟨s', by rw [addWatch, e1]; exact e2, fun rs junk hok hw => ?_⟩
  have hsz : s'.size = s.size := by
    rw [(addSubs_kept (by rw [ha.mon]; exact hp) e2).size, ha.size]
  refine handler_reports s' _ rs junk hok fun r hr' hn => ?_
  have hm := hw r hr' hn
  obtain ⟨a, b, c⟩ := hfree _ hm
  refine ⟨by rw [hsz]; exact a, b, ?_⟩
  unfold asked
  by_cases e : r.wd.toNat = i
  · rw [if_pos e]
    rw [e, hr i hnd.1 ha.ne, ha.new]
  · rw [if_neg e]
    simp only [List.mem_cons, e, false_or] at hm
    obtain ⟨d, hd⟩ := lookup_isSome_of_mem hm
    rw [hd]
    exact (ho _ d hd).2

theorem number_append : ∀ (k : Nat) (a b : List Bytes), number k (a ++ b) = number k a ++ number (k + a.length) b
  | _, [], _ => rfl
  | k, d :: a, b => by
    simp only [List.cons_append, number, List.length_cons]
    rw [number_append (k + 1) a b]
    congr 3
    omega

theorem number_fst : ∀ (k : Nat) (l : List Bytes), (number k l).map Prod.fst = List.range' k l.length
  | _, [] => rfl
  | k, d :: l => by simp [number, number_fst (k + 1) l, List.range'_succ]

/-- `r` as a 32-bit number. -/
theorem wd_toNat {r : Nat} (h : r < 2 ^ 31) : (BitVec.ofNat 32 r).toNat = r := by
  rw [BitVec.toNat_ofNat, Nat.mod_eq_of_lt (by omega)]

/-- The monitor's descriptor is number `r`, the kernel numbers watches from 1: the entry with number `r` is taken by the
monitor itself.  In a tree with more directories than `r`, a change in directory number `r` prints a null pointer, and a
change in directory number `r + 1` is reported as one in directory number `r`. -/
theorem own_descriptor_collides (r : Nat) (s s' : St) (path0 : Bytes) (paths : List Bytes) (a b : Bytes) (hr : 2 ≤ r)
    (hr31 : r + 1 < 2 ^ 31) (hempty : ∀ i, (s.slot i).used = false) (hsize : r + 1 < s.size)
    (ha : paths[r - 2]? = some a) (hb : paths[r - 1]? = some b)
    (h : addWatch r 1 path0 (number 2 paths) (initMon r s).2 = .ok s') :
    s'.kern r r = some a ∧ s'.kern r (r + 1) = some b ∧
    (∀ x : Rec, x.Ok → Named x = true → x.wd = BitVec.ofNat 32 r → handler s' x.bytes x.bytes.length = .ub) ∧
    (∀ x : Rec, x.Ok → Named x = true → x.wd = BitVec.ofNat 32 (r + 1) →
      ∃ c, handler s' x.bytes x.bytes.length = .ok [c] ∧ c.path = (Dir.sub a).path x.name) := by
  obtain ⟨A, C, hAC, hlen⟩ : ∃ A C, paths = A ++ a :: b :: C ∧ A.length = r - 2 := by
    refine ⟨paths.take (r - 2), paths.drop r, ?_, ?_⟩
    · have h1 : paths.drop (r - 2) = a :: paths.drop (r - 2 + 1) := by
        obtain ⟨hl, e⟩ := List.getElem?_eq_some_iff.1 ha
        rw [List.drop_eq_getElem_cons hl, e]
      have h2 : paths.drop (r - 1) = b :: paths.drop (r - 1 + 1) := by
        obtain ⟨hl, e⟩ := List.getElem?_eq_some_iff.1 hb
        rw [List.drop_eq_getElem_cons hl, e]
      have e1 : r - 2 + 1 = r - 1 := by omega
      have e2 : r - 1 + 1 = r := by omega
      rw [e1] at h1
      rw [e2] at h2
      rw [← h2, ← h1, List.take_append_drop]
    · obtain ⟨hl, _⟩ := List.getElem?_eq_some_iff.1 ha
      simp
      omega
  -- the monitor
  have hm : initMon r s = (some r, s.set r (fresh (s.slot r) false r)) := by
    simp only [initMon, newFd, pick_own (by omega : r < s.size) (hempty r)]
  rw [hm] at h
  simp only at h
  generalize hs0 : s.set r (fresh (s.slot r) false r) = s0 at h
  have m0 : s0.slot r = fresh (s.slot r) false r := by rw [← hs0, set_slot, if_pos rfl]
  have u0 : (s0.slot r).used = true := by rw [m0]; rfl
  have r0 : ∀ j, j ≠ r → (s0.slot j).used = false := fun j hj => by rw [← hs0, set_slot, if_neg hj]; exact hempty j
  have z0 : s0.size = s.size := by rw [← hs0]; rfl
  have g0 : getFd s0 r = r := by
    have : valid s0 r = true := by
      simp only [valid, z0, m0, fresh, Bool.and_eq_true, decide_eq_true_eq]
      exact ⟨⟨by omega, trivial⟩, by omega⟩
    rw [getFd, if_pos this, m0]
    rfl
  -- the root
  rw [addWatch, Res.bind_eq_ok] at h
  obtain ⟨s1, e1, h⟩ := h
  obtain ⟨i1, a1⟩ := addDir_ok u0 e1
  have hi1 : i1 = 1 := by
    have := a1.pick
    rw [pick_own (by omega) (r0 1 (by omega))] at this
    cases this
    rfl
  subst hi1
  have u1 : (s1.slot r).used = true := by rw [a1.mon]; exact u0
  -- directories 2 .. r - 1
  rw [hAC, number_append, hlen] at h
  have e2r : 2 + (r - 2) = r := by omega
  rw [e2r] at h
  simp only [number] at h
  rw [addSubs_append, Res.bind_eq_ok] at h
  obtain ⟨s2, e2, h⟩ := h
  obtain ⟨s2', e2', o2, q2⟩ := addSubs_own (number 2 A) s1 u1
    (fun x hx => by
      have hx1 : x.1 ∈ List.range' 2 A.length := by rw [← number_fst]; exact List.mem_map_of_mem hx
      rw [List.mem_range'_1, hlen] at hx1
      rw [a1.size, z0, a1.rest x.1 (by omega) (by omega)]
      exact ⟨by omega, r0 _ (by omega)⟩)
    (by rw [number_fst]; exact List.nodup_range')
  have hs2 : s2' = s2 := by
    rw [e2] at e2'
    cases e2'
    rfl
  subst hs2
  have k2 := addSubs_kept u1 e2
  have u2 : (s2'.slot r).used = true := by rw [k2.mon.1]; exact u1
  have z2 : s2'.size = s.size := by rw [k2.size, a1.size, z0]
  have low : ∀ j, 1 ≤ j → j < r → (s2'.slot j).used = true := by
    intro j h1 h2
    by_cases e : j = 1
    · subst e
      rw [k2.used 1 (by rw [a1.new]) (by omega), a1.new]
    · have : j ∈ (number 2 A).map Prod.fst := by
        rw [number_fst, List.mem_range'_1, hlen]
        omega
      obtain ⟨d, hd⟩ := lookup_isSome_of_mem this
      exact (o2 j d hd).1
  have high : ∀ j, r < j → (s2'.slot j).used = false := by
    intro j hj
    rw [q2 j (by rw [number_fst, List.mem_range'_1, hlen]; omega) (by omega), a1.rest j (by omega) (by omega)]
    exact r0 j (by omega)
  -- directory r takes entry r + 1
  rw [addSubs, Res.bind_eq_ok] at h
  obtain ⟨s3, e3, h⟩ := h
  obtain ⟨i3, a3⟩ := addDir_ok u2 e3
  have hi3 : i3 = r + 1 := by
    have := a3.pick
    rw [pick_first (i := r + 1) (by omega) u2 (by omega) (by omega) (high _ (by omega))
      (fun j h1 h2 => by
        by_cases e : j = r
        · rw [e]; exact u2
        · exact low j h1 (by omega))] at this
    cases this
    rfl
  subst hi3
  have u3 : (s3.slot r).used = true := by rw [a3.mon]; exact u2
  -- the rest
  have hkeep := addSubs_kept u3 h
  have g2 : getFd s2' r = r := by rw [getFd_kept k2, getFd_kept a1.kept, g0]
  have g3 : getFd s3 r = r := by rw [getFd_kept a3.kept, g2]
  rw [addSubs, Res.bind_eq_ok] at h
  obtain ⟨s4, e4, h⟩ := h
  obtain ⟨i4, a4⟩ := addDir_ok u3 e4
  have u4 : (s4.slot r).used = true := by rw [a4.mon]; exact u3
  have g4 : getFd s4 r = r := by rw [getFd_kept a4.kept, g3]
  have kc := addSubs_kern u4 h
  rw [g4] at kc
  have kr : s'.kern r r = some a := by
    rw [kc r (by rw [number_fst, List.mem_range'_1]; omega), a4.kern, g3]
    simp only [Function.update_self]
    rw [Function.update_of_ne (by omega), a3.kern, g2]
    simp
  have kr1 : s'.kern r (r + 1) = some b := by
    rw [kc (r + 1) (by rw [number_fst, List.mem_range'_1]; omega), a4.kern, g3]
    simp
  refine ⟨kr, kr1, fun x hx hn hw => ?_, fun x hx hn hw => ?_⟩
  · apply (handler_one s' x hx hn).2
    have hp : (s'.slot r).path = none := by
      rw [hkeep.mon.2.2.2.1, a3.mon]
      show (s2'.slot r).path = none
      rw [k2.mon.2.2.2.1, a1.mon]
      show (s0.slot r).path = none
      rw [m0]
      rfl
    have hc : (s'.slot r).changes = false := by
      rw [hkeep.mon.2.2.1, a3.mon]
      show (s2'.slot r).changes = false
      rw [k2.mon.2.2.1, a1.mon]
      show (s0.slot r).changes = false
      rw [m0]
      rfl
    rw [hw]
    simp only [pathArg, wd_toNat (show r < 2 ^ 31 by omega), hp, hc]
    split <;> rfl
  · have hslot : s'.slot (r + 1) = s3.slot (r + 1) := hkeep.used (r + 1) (by rw [a3.new]) (by omega)
    have hz : s'.size = s.size := by rw [hkeep.size, a3.size, z2]
    obtain ⟨c, e, _, f⟩ := (handler_one s' x hx hn).1 ((Dir.sub a).path x.name) (by
      rw [hw]
      simp only [pathArg, wd_toNat hr31, hslot, a3.new, hz]
      rw [if_pos ⟨hsize, hr31⟩]
      rfl)
    exact ⟨c, e, f⟩

theorem addSubs_kern_mem {p : Nat} : ∀ {l : List (Nat × Bytes)} {s s' : St}, (s.slot p).used = true → addSubs p l s = .ok s' →
    (l.map Prod.fst).Nodup → ∀ w d, (w, d) ∈ l → s'.kern (getFd s p) w = some d
  | [], _, _, _, _, _, _, _, h => by simp at h
  | (v, path) :: l, s, s', hp, h, hn, w, d, hm => by
    rw [addSubs, Res.bind_eq_ok] at h
    obtain ⟨s1, h1, h2⟩ := h
    obtain ⟨i, ha⟩ := addDir_ok hp h1
    have hp1 : (s1.slot p).used = true := by rw [ha.mon]; exact hp
    simp only [List.map_cons, List.nodup_cons] at hn
    rw [← getFd_kept ha.kept]
    rcases List.mem_cons.1 hm with e | e
    · obtain ⟨rfl, rfl⟩ : w = v ∧ d = path := by simpa using e
      rw [addSubs_kern hp1 h2 w hn.1, ha.kern, getFd_kept ha.kept]
      simp
    · exact addSubs_kern_mem hp1 h2 hn.2 w d e

/-- Each monitor numbers its watches from 1, but all share one table.  If the entry of number `w` belongs to a directory `d`
of another monitor, a change in the directory `e` that monitor `q` watches under number `w` is reported as a change in `d`. -/
theorem second_monitor_misreports (q w w0 : Nat) (path0 d e : Bytes) (subs : List (Nat × Bytes)) (s s' : St)
    (hq : (s.slot q).used = true) (hw : (s.slot w).used = true) (hwq : w ≠ q) (hc : (s.slot w).changes = false)
    (hd : (s.slot w).path = some d) (hsz : w < s.size) (h31 : w < 2 ^ 31) (hnd : (w0 :: subs.map Prod.fst).Nodup)
    (hm : (w, e) ∈ subs) (h : addWatch q w0 path0 subs s = .ok s') :
    s'.kern (getFd s q) w = some e ∧
    ∀ x : Rec, x.Ok → Named x = true → x.wd = BitVec.ofNat 32 w →
      ∃ c, handler s' x.bytes x.bytes.length = .ok [c] ∧ c.path = (Dir.sub d).path x.name := by
  rw [addWatch, Res.bind_eq_ok] at h
  obtain ⟨s1, e1, h⟩ := h
  obtain ⟨i, ha⟩ := addDir_ok hq e1
  have h1 : (s1.slot q).used = true := by rw [ha.mon]; exact hq
  rw [List.nodup_cons] at hnd
  have k := ha.kept.trans (addSubs_kept h1 h)
  refine ⟨?_, fun x hx hn hxw => ?_⟩
  · rw [← getFd_kept ha.kept]
    exact addSubs_kern_mem h1 h hnd.2 w e hm
  · obtain ⟨c, e, _, f⟩ := (handler_one s' x hx hn).1 ((Dir.sub d).path x.name) (by
      rw [hxw]
      simp only [pathArg, wd_toNat h31, k.size, k.used w hw hwq, hc, hd]
      rw [if_pos ⟨hsz, h31⟩]
      rfl)
    exact ⟨c, e, f⟩

/-! ## C73 -/

/-- Free entries that a watch can take. -/
def free (s : St) : Nat := ((List.range s.size).filter fun i => decide (1 ≤ i) && !(s.slot i).used).length

theorem Added.free {p w i : Nat} {root : Bool} {path : Bytes} {s s' : St} (h : Added p root w path s s' i) (hw : 0 < w)
    (hp : (s.slot p).used = true) : free s = free s' + 1 := by
  obtain ⟨h1, h2⟩ := pick_some h.pick
  have h0 : 1 ≤ i := by
    have := h.pick
    unfold Watch.pick at this
    split at this
    · cases this; exact hw
    · have := List.find?_some this
      simp at this
      exact this.1
  have hp' : (s'.slot p).used = true := by rw [h.mon]; exact hp
  unfold Watch.free
  rw [h.size]
  have key : ∀ n, i < n → ((List.range n).filter fun j => decide (1 ≤ j) && !(s.slot j).used).length =
      ((List.range n).filter fun j => decide (1 ≤ j) && !(s'.slot j).used).length + 1 := by
    have same : ∀ n, n ≤ i → ((List.range n).filter fun j => decide (1 ≤ j) && !(s.slot j).used) =
        ((List.range n).filter fun j => decide (1 ≤ j) && !(s'.slot j).used) := by
      intro n hn
      apply List.filter_congr
      intro j hj
      rw [List.mem_range] at hj
      by_cases e : j = p
      · rw [e, hp, hp']
      · rw [h.rest j (by omega) e]
    intro n hn
    induction n with
    | zero => omega
    | succ n ih =>
      rw [List.range_succ, List.filter_append, List.filter_append, List.length_append, List.length_append]
      by_cases e : i = n
      · subst e
        rw [same i (le_refl _)]
        simp [h0, h2, h.new]
      · rw [ih (by omega)]
        have : (s'.slot n).used = (s.slot n).used := by
          by_cases e2 : n = p
          · rw [e2, hp, hp']
          · rw [h.rest n (Ne.symm e) e2]
        have e3 : ([n].filter fun j => decide (1 ≤ j) && !(s.slot j).used) =
            ([n].filter fun j => decide (1 ≤ j) && !(s'.slot j).used) := by
          apply List.filter_congr
          intro j hj
          rw [List.mem_singleton.1 hj, this]
        rw [e3]
        omega
  exact key s.size h1

theorem pick_of_free {s : St} {n : Nat} (hn : 0 < n) (h : 0 < free s) : ∃ i, pick s n = some i := by
  cases hp : pick s n with
  | some i => exact ⟨i, rfl⟩
  | none =>
    have := pick_none hn hp
    unfold free at h
    obtain ⟨i, hi⟩ := List.exists_mem_of_length_pos h
    simp only [List.mem_filter, List.mem_range, Bool.and_eq_true, decide_eq_true_eq, Bool.not_eq_true'] at hi
    have := this i hi.2.1 hi.1
    rw [hi.2.2] at this
    cases this

theorem pick_of_full {s : St} {n : Nat} (hn : 0 < n) (h : free s = 0) : pick s n = none := by
  cases hp : pick s n with
  | none => rfl
  | some i =>
    exfalso
    obtain ⟨h1, h2⟩ := pick_some hp
    have h0 : 1 ≤ i := by
      unfold pick at hp
      split at hp
      · cases hp; exact hn
      · have := List.find?_some hp
        simp at this
        exact this.1
    have hm : i ∈ (List.range s.size).filter fun i => decide (1 ≤ i) && !(s.slot i).used := by
      simp [h1, h0, h2]
    unfold free at h
    rw [List.length_eq_zero_iff] at h
    rw [h] at hm
    cases hm

theorem addSubs_outcome {p : Nat} : ∀ (l : List (Nat × Bytes)) (s : St), (s.slot p).used = true → (∀ x ∈ l, 0 < x.1) →
    if l.length ≤ free s then ∃ s', addSubs p l s = .ok s' else addSubs p l s = .ub
  | [], s, _, _ => by simp [addSubs]
  | (w, d) :: l, s, hp, hw => by
    have hw0 : 0 < w := hw (w, d) (by simp)
    by_cases hf : free s = 0
    · rw [if_neg (by simp [hf]), addSubs, addDir_ub _ _ (pick_of_full hw0 hf)]
      rfl
    · obtain ⟨i, hi⟩ := pick_of_free hw0 (Nat.pos_of_ne_zero hf)
      obtain ⟨s1, e1⟩ := addDir_eq (p := p) false d hi
      obtain ⟨i', ha⟩ := addDir_ok hp e1
      have hfr := ha.free hw0 hp
      have ih := addSubs_outcome l s1 (by rw [ha.mon]; exact hp) (fun x hx => hw x (by simp [hx]))
      have e : (((w, d) :: l).length ≤ free s) = (l.length ≤ free s1) := by
        rw [hfr]
        simp
      rw [addSubs, e1]
      simp only [e, Res.ok_bind]
      exact ih

/-- A tree can be watched if the table has a free entry for each of its directories, whatever numbers the kernel chooses. -/
theorem tree_fits_partial (p w0 : Nat) (path0 : Bytes) (subs : List (Nat × Bytes)) (s : St) (hp : (s.slot p).used = true)
    (hw0 : 0 < w0) (hw : ∀ x ∈ subs, 0 < x.1) (h : subs.length + 1 ≤ free s) :
    ∃ s', addWatch p w0 path0 subs s = .ok s' := by
  obtain ⟨i, hi⟩ := pick_of_free hw0 (show 0 < free s by omega)
  obtain ⟨s1, e1⟩ := addDir_eq (p := p) true path0 hi
  obtain ⟨i', ha⟩ := addDir_ok hp e1
  have hfr := ha.free hw0 hp
  have := addSubs_outcome subs s1 (by rw [ha.mon]; exact hp) hw
  rw [if_pos (by omega)] at this
  rw [addWatch, e1]
  exact this

/-- A tree with more directories than the table has free entries (256 at the start) makes the program write outside the
table. -/
theorem large_tree_ub (p w0 : Nat) (path0 : Bytes) (subs : List (Nat × Bytes)) (s : St) (hp : (s.slot p).used = true)
    (hw0 : 0 < w0) (hw : ∀ x ∈ subs, 0 < x.1) (h : free s < subs.length + 1) :
    addWatch p w0 path0 subs s = .ub := by
  rw [addWatch]
  by_cases hf : free s = 0
  · rw [addDir_ub _ _ (pick_of_full hw0 hf)]
    rfl
  · obtain ⟨i, hi⟩ := pick_of_free hw0 (Nat.pos_of_ne_zero hf)
    obtain ⟨s1, e1⟩ := addDir_eq (p := p) true path0 hi
    obtain ⟨i', ha⟩ := addDir_ok hp e1
    have hfr := ha.free hw0 hp
    have := addSubs_outcome subs s1 (by rw [ha.mon]; exact hp) hw
    rw [if_neg (by omega)] at this
    rw [e1]
    exact this

/-! ## Cases -/

/-- A monitor with descriptor 5 in a new table. -/
def mon5 : St := (initMon 5 start).2

example : (mon5.slot 5).used = true ∧ ([1, 2, 3] : List Nat).Nodup ∧
    ∀ w ∈ [1, 2, 3], w < mon5.size ∧ w < 2 ^ 31 ∧ (mon5.slot w).used = false := by decide +kernel

/-- Ten directories below the root, monitor with descriptor 5. -/
def tree : List Bytes := (List.range 10).map fun i => [0x64, 0x2f, UInt8.ofNat (0x61 + i)]

example : ∃ s', addWatch 5 1 [0x64] (number 2 tree) mon5 = .ok s' ∧
    tree[5 - 2]? = some [0x64, 0x2f, 0x64] ∧ tree[5 - 1]? = some [0x64, 0x2f, 0x65] :=
  ⟨_, rfl, rfl, rfl⟩

example : (⟨6#32, 0x100#32, 0#32, [0x61], 15⟩ : Rec).Ok ∧ Named ⟨6#32, 0x100#32, 0#32, [0x61], 15⟩ = true := by decide

/-- A second monitor (descriptor 9) while the first watches "d" and "d/a". -/
def mon9 : Res St := do
  let s ← addWatch 5 1 [0x64] [(2, [0x64, 0x2f, 0x61])] mon5
  .ok (initMon 9 s).2

example : ∃ s s', mon9 = .ok s ∧ (s.slot 9).used = true ∧ (s.slot 2).used = true ∧ (s.slot 2).changes = false ∧
    (s.slot 2).path = some [0x64, 0x2f, 0x61] ∧ addWatch 9 1 [0x65] [(2, [0x65, 0x2f, 0x62])] s = .ok s' :=
  ⟨_, _, rfl, rfl, rfl, rfl, rfl, rfl⟩

example : (mon5.slot 5).used = true ∧ free mon5 = 254 ∧ (∀ x ∈ number 2 tree, 0 < x.1) ∧ (number 2 tree).length + 1 ≤ free mon5 := by
  decide +kernel

end Verif.Watch
