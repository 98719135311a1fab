import Verif.Basic
import Mathlib.Logic.Function.Basic
import Mathlib.Data.List.Nodup

/-!
# Signals that arrive at the same time (`src/os_unix.c` 19-27, 649-669, 689-726), C232

The handler of all signals given to the event loop uses one flag and one variable for the saved signal mask, for all threads.
Here the handler and `events_add_signal` are cut into their accesses to the two; any number of threads run them, interrupted by
signals wherever the mask of the thread allows it.
-/

namespace Verif.Io.SigRace

abbrev Sig := Nat

/-- A signal mask: which signals are blocked. -/
abbrev Mask := Sig → Bool

/-- Where a call of `events_sig_handler` (`check` … `ret`) or of `events_add_signal` (`ablock` … `adone`) is:
`check` before 650, `set` before 653, `block` before 656, `call` before 658-666, `unblock` before 667, `clear` before 668,
`ret` before the return; `ablock` before 703, `ainst` before 707-713, `astore` before 718-722,
`aunblock` before 724. -/
inductive Pc where
  | check | set | block | call | unblock | clear | ret
  | ablock | ainst | astore | aunblock | adone
  deriving DecidableEq, Repr

/-- A call in progress; `saved`: the mask the kernel restores when the handler returns; `id`: the number of the arrival. -/
structure Frame where
  pc : Pc
  sig : Sig
  id : Nat
  saved : Mask

structure Thread where
  mask : Mask
  stack : List Frame

/-- `all`: `events_siglock_all`, os_unix.c:19; `flag`: `signal_running`, 21; `reg`: signals with an entry in `events_sig`;
`inst`: signals for which the handler is installed.
`got`: the signals that interrupted a thread, by number; `calls`: the callbacks that were called, by the same number; `late`:
the arrivals that came before the entry was stored. -/
structure St where
  th : Nat → Thread
  all : Mask
  flag : Bool
  exited : Bool
  reg : Sig → Bool
  inst : Sig → Bool
  next : Nat
  got : Nat → Sig
  late : Nat → Bool
  calls : List (Nat × Sig)

def full : Mask := fun _ => true

/-- The mask while a handler runs: `SA_RESTART` only, so the signal itself is blocked as well (os_unix.c:708). -/
def enter (m : Mask) (s : Sig) : Mask := fun x => m x || x == s

inductive Ev where
  /-- The kernel chooses thread `t` for signal `s`. -/
  | arrive (t : Nat) (s : Sig)
  /-- Thread `t` calls `events_add_signal(s, …)`. -/
  | add (t : Nat) (s : Sig)
  | step (t : Nat)
  deriving Repr

def St.put (st : St) (t : Nat) (x : Thread) : St := { st with th := Function.update st.th t x }

/-- One step of the topmost call of thread `t`.  Simplified: the callback itself is one step and uses no signal functions; each
signal has at most one entry (see C62 for the table). -/
def stepTop (st : St) (t : Nat) : St :=
  let x := st.th t
  match x.stack with
  | [] => st
  | f :: r =>
    match f.pc with
    | .check => if st.flag then { st with exited := true } else st.put t { x with stack := { f with pc := .set } :: r }
    | .set => { st with flag := true }.put t { x with stack := { f with pc := .block } :: r }
    | .block => { st with all := x.mask }.put t { mask := full, stack := { f with pc := .call } :: r }
    | .call => { st with calls := if st.reg f.sig then st.calls ++ [(f.id, f.sig)] else st.calls }.put t
        { x with stack := { f with pc := .unblock } :: r }
    | .unblock => st.put t { mask := st.all, stack := { f with pc := .clear } :: r }
    | .clear => { st with flag := false }.put t { x with stack := { f with pc := .ret } :: r }
    | .ret => st.put t { mask := f.saved, stack := r }
    | .ablock => { st with all := x.mask }.put t { mask := full, stack := { f with pc := .ainst } :: r }
    | .ainst => { st with inst := Function.update st.inst f.sig true }.put t { x with stack := { f with pc := .astore } :: r }
    | .astore => { st with reg := Function.update st.reg f.sig true }.put t { x with stack := { f with pc := .aunblock } :: r }
    | .aunblock => st.put t { mask := st.all, stack := { f with pc := .adone } :: r }
    | .adone => st.put t { x with stack := r }

/-- One event; nothing happens any more after `exit(1)` at os_unix.c:651.  A blocked signal stays pending with the kernel. -/
def ev (st : St) (e : Ev) : St :=
  if st.exited then st else
  match e with
  | .arrive t s =>
    let x := st.th t
    if x.mask s || !st.inst s then st
    else { st with next := st.next + 1, got := Function.update st.got st.next s,
                   late := Function.update st.late st.next (!st.reg s) }.put t
      { mask := enter x.mask s, stack := ⟨.check, s, st.next, x.mask⟩ :: x.stack }
  | .add t s => st.put t { st.th t with stack := ⟨.ablock, s, 0, fun _ => false⟩ :: (st.th t).stack }
  | .step t => stepTop st t

def run (st : St) (l : List Ev) : St := l.foldl ev st

/-! ## Specification -/

/-- No call is in progress and no arrival has been counted yet. -/
structure Quiet (st : St) : Prop where
  stack : ∀ t, (st.th t).stack = []
  flag : st.flag = false
  live : st.exited = false

/-- Quiet, and nothing has arrived so far. -/
structure Fresh (st : St) : Prop extends Quiet st where
  next : st.next = 0
  calls : st.calls = []

/-! ## Every arrival is delivered once, if the process lives -/

/-- The call of the callback is still to come. -/
def Pc.early : Pc → Bool
  | .check | .set | .block | .call => true
  | _ => false

/-- Numbers of the arrivals of a stack whose callback is still to come. -/
def pre (l : List Frame) : List Nat := (l.filter fun f => f.pc.early).map Frame.id

structure Inv (st : St) : Prop where
  nodup : ∀ t, (pre (st.th t).stack).Nodup
  disj : ∀ t u, t ≠ u → ∀ i, i ∈ pre (st.th t).stack → i ∉ pre (st.th u).stack
  bound : ∀ t, ∀ i ∈ pre (st.th t).stack, i < st.next
  frames : ∀ t, ∀ f ∈ (st.th t).stack, f.pc.early = true → st.got f.id = f.sig ∧ (st.reg f.sig = true ∨ st.late f.id = true)
  cnodup : (st.calls.map Prod.fst).Nodup
  cdone : ∀ c ∈ st.calls, c.1 < st.next ∧ st.got c.1 = c.2 ∧ ∀ t, c.1 ∉ pre (st.th t).stack
  cover : ∀ i < st.next, (∃ s, (i, s) ∈ st.calls) ∨ (∃ t, i ∈ pre (st.th t).stack) ∨ st.late i = true

/-- A change of one thread's stack that keeps the arrivals still to be delivered. -/
theorem inv_same {st st' : St} (h : Inv st) (t : Nat)
    (hu : ∀ u, u ≠ t → (st'.th u).stack = (st.th u).stack)
    (hp : pre (st'.th t).stack = pre (st.th t).stack)
    (hf : ∀ f ∈ (st'.th t).stack, f.pc.early = true → ∃ g ∈ (st.th t).stack, g.pc.early = true ∧ g.id = f.id ∧ g.sig = f.sig)
    (hn : st'.next = st.next) (hg : st'.got = st.got) (hr : ∀ s, st.reg s = true → st'.reg s = true)
    (hlt : st'.late = st.late) (hc : st'.calls = st.calls) : Inv st' := by
  have hpre : ∀ u, pre (st'.th u).stack = pre (st.th u).stack := by
    intro u
    by_cases e : u = t
    · rw [e, hp]
    · rw [hu u e]
  constructor
  · intro u; rw [hpre]; exact h.nodup u
  · intro u v huv i; rw [hpre, hpre]; exact h.disj u v huv i
  · intro u; rw [hpre, hn]; exact h.bound u
  · intro u f hfm he
    by_cases e : u = t
    · subst e
      obtain ⟨g, g1, g2, g3, g4⟩ := hf f hfm he
      obtain ⟨a, b⟩ := h.frames u g g1 g2
      rw [hg, hlt, ← g3, ← g4]
      exact ⟨a, b.imp (hr _) id⟩
    · rw [hu u e] at hfm
      obtain ⟨a, b⟩ := h.frames u f hfm he
      rw [hg, hlt]
      exact ⟨a, b.imp (hr _) id⟩
  · rw [hc]; exact h.cnodup
  · intro c; rw [hc, hn, hg]
    intro hm
    obtain ⟨a, b, d⟩ := h.cdone c hm
    exact ⟨a, b, fun u => by rw [hpre]; exact d u⟩
  · intro i; rw [hn, hc]
    intro hi
    rcases h.cover i hi with a | ⟨u, a⟩ | a
    · exact Or.inl a
    · exact Or.inr (Or.inl ⟨u, by rw [hpre]; exact a⟩)
    · exact Or.inr (Or.inr (by rw [hlt]; exact a))

theorem pre_cons (f : Frame) (r : List Frame) : pre (f :: r) = if f.pc.early then f.id :: pre r else pre r := by
  unfold pre
  cases h : f.pc.early <;> simp [h]

/-- Moving the top call from one early place to another. -/
theorem inv_move {st st' : St} (h : Inv st) (t : Nat) (f f' : Frame) (r : List Frame) (hs : (st.th t).stack = f :: r)
    (hs' : (st'.th t).stack = f' :: r) (he : f'.pc.early = f.pc.early) (hid : f'.id = f.id) (hsig : f'.sig = f.sig)
    (hu : ∀ u, u ≠ t → (st'.th u).stack = (st.th u).stack)
    (hn : st'.next = st.next) (hg : st'.got = st.got) (hr : ∀ s, st.reg s = true → st'.reg s = true)
    (hlt : st'.late = st.late) (hc : st'.calls = st.calls) : Inv st' := by
  refine inv_same h t hu ?_ ?_ hn hg hr hlt hc
  · rw [hs, hs', pre_cons, pre_cons, he, hid]
  · rw [hs']
    intro x hx hxe
    rcases List.mem_cons.mp hx with rfl | hx
    · exact ⟨f, by rw [hs]; simp, by rw [← he]; exact hxe, hid.symm, hsig.symm⟩
    · exact ⟨x, by rw [hs]; simp [hx], hxe, rfl, rfl⟩

/-- Removing or adding a call that has nothing to deliver. -/
theorem inv_drop {st st' : St} (h : Inv st) (t : Nat) (f : Frame) (r : List Frame) (hs : (st.th t).stack = f :: r)
    (hs' : (st'.th t).stack = r) (he : f.pc.early = false)
    (hu : ∀ u, u ≠ t → (st'.th u).stack = (st.th u).stack)
    (hn : st'.next = st.next) (hg : st'.got = st.got) (hr : st'.reg = st.reg)
    (hlt : st'.late = st.late) (hc : st'.calls = st.calls) : Inv st' := by
  refine inv_same h t hu ?_ ?_ hn hg (by rw [hr]; exact fun _ h => h) hlt hc
  · rw [hs, hs', pre_cons, he]; rfl
  · rw [hs']
    intro x hx hxe
    exact ⟨x, by rw [hs]; simp [hx], hxe, rfl, rfl⟩

theorem put_self (st : St) (t : Nat) (x : Thread) : (st.put t x).th t = x := by simp [St.put]

theorem put_other (st : St) {t u : Nat} (x : Thread) (h : u ≠ t) : (st.put t x).th u = st.th u := by simp [St.put, h]

theorem inv_ev {st : St} (h : Inv st) (e : Ev) : Inv (ev st e) := by
  unfold ev
  split
  · exact h
  · cases e with
    | add t s =>
      refine inv_same h t (fun u hu => by rw [put_other _ _ hu]) ?_ ?_ rfl rfl (fun _ h => h) rfl rfl
      · rw [put_self, pre_cons]; rfl
      · rw [put_self]
        intro x hx hxe
        rcases List.mem_cons.mp hx with rfl | hx
        · simp [Pc.early] at hxe
        · exact ⟨x, hx, hxe, rfl, rfl⟩
    | arrive t s =>
      simp only
      split
      · exact h
      · rename_i hc
        set st' : St := { st with next := st.next + 1, got := Function.update st.got st.next s,
                                  late := Function.update st.late st.next (!st.reg s) }.put t
          { mask := enter (st.th t).mask s, stack := ⟨.check, s, st.next, (st.th t).mask⟩ :: (st.th t).stack } with hst
        have hpt : pre (st'.th t).stack = st.next :: pre (st.th t).stack := by
          rw [hst, put_self, pre_cons]; rfl
        have hpu : ∀ u, u ≠ t → (st'.th u) = st.th u := fun u hu => by rw [hst, put_other _ _ hu]
        have hgot : ∀ i, i < st.next → st'.got i = st.got i := by
          intro i hi
          show Function.update st.got st.next s i = _
          rw [Function.update_of_ne (by omega)]
        have hlate : ∀ i, i < st.next → st'.late i = st.late i := by
          intro i hi
          show Function.update st.late st.next (!st.reg s) i = _
          rw [Function.update_of_ne (by omega)]
        have hfresh : ∀ u, st.next ∉ pre (st.th u).stack := fun u hm => absurd (h.bound u _ hm) (by omega)
        have hmem : ∀ u i, i ∈ pre (st'.th u).stack ↔ (u = t ∧ i = st.next) ∨ i ∈ pre (st.th u).stack := by
          intro u i
          by_cases e : u = t
          · subst e; rw [hpt]; simp
          · rw [hpu u e]; simp [e]
        constructor
        · intro u
          by_cases e : u = t
          · subst e; rw [hpt]; exact List.nodup_cons.mpr ⟨hfresh u, h.nodup u⟩
          · rw [hpu u e]; exact h.nodup u
        · intro u v huv i hi
          rw [hmem] at hi ⊢
          rintro (⟨rfl, rfl⟩ | hv)
          · rcases hi with ⟨rfl, _⟩ | hi
            · exact huv rfl
            · exact hfresh u hi
          · rcases hi with ⟨rfl, rfl⟩ | hi
            · exact hfresh v hv
            · exact h.disj u v huv i hi hv
        · intro u i hi
          rw [hmem] at hi
          show i < st.next + 1
          rcases hi with ⟨_, rfl⟩ | hi
          · omega
          · have := h.bound u i hi; omega
        · intro u f hf he
          have old : ∀ f, f ∈ (st.th u).stack → f.pc.early = true →
              st'.got f.id = f.sig ∧ (st'.reg f.sig = true ∨ st'.late f.id = true) := by
            intro f hf he
            obtain ⟨a, b⟩ := h.frames u f hf he
            have : f.id ∈ pre (st.th u).stack := by
              unfold pre
              exact List.mem_map.mpr ⟨f, List.mem_filter.mpr ⟨hf, he⟩, rfl⟩
            exact ⟨by rw [hgot _ (h.bound u _ this)]; exact a, by rw [hlate _ (h.bound u _ this)]; exact b⟩
          by_cases e : u = t
          · subst e
            rw [hst, put_self] at hf
            rcases List.mem_cons.mp hf with rfl | hf
            · refine ⟨?_, ?_⟩
              · show Function.update st.got st.next s st.next = s
                simp
              · show st.reg s = true ∨ Function.update st.late st.next (!st.reg s) st.next = true
                cases st.reg s <;> simp
            · exact old f hf he
          · rw [hpu u e] at hf
            exact old f hf he
        · exact h.cnodup
        · intro c hcm
          obtain ⟨a, b, d⟩ := h.cdone c hcm
          refine ⟨Nat.lt_succ_of_lt a, by rw [hgot _ a]; exact b, fun u hm => ?_⟩
          rw [hmem] at hm
          rcases hm with ⟨_, hm⟩ | hm
          · omega
          · exact d u hm
        · intro i hi
          have hi' : i < st.next + 1 := hi
          by_cases hin : i = st.next
          · exact Or.inr (Or.inl ⟨t, by rw [hmem]; exact Or.inl ⟨rfl, hin⟩⟩)
          · rcases h.cover i (by omega) with a | ⟨u, a⟩ | a
            · exact Or.inl a
            · exact Or.inr (Or.inl ⟨u, by rw [hmem]; exact Or.inr a⟩)
            · exact Or.inr (Or.inr (by rw [hlate i (by omega)]; exact a))
    | step t =>
      simp only
      unfold stepTop
      simp only
      cases hstk : (st.th t).stack with
      | nil => exact h
      | cons f r =>
        simp only
        have ou : ∀ (s2 : St) (x : Thread), s2.th = st.th → ∀ u, u ≠ t → ((s2.put t x).th u).stack = (st.th u).stack := by
          intro s2 x h2 u hu
          rw [put_other _ _ hu, h2]
        cases hpc : f.pc with
        | check =>
          simp only
          split
          · exact ⟨h.nodup, h.disj, h.bound, h.frames, h.cnodup, h.cdone, h.cover⟩
          · exact inv_move h t f { f with pc := .set } r hstk (by rw [put_self]) (by simp [hpc, Pc.early]) rfl rfl
              (ou st _ rfl) rfl rfl (fun _ h => h) rfl rfl
        | set =>
          exact inv_move h t f { f with pc := .block } r hstk (by rw [put_self]) (by simp [hpc, Pc.early]) rfl rfl
              (ou _ _ rfl) rfl rfl (fun _ h => h) rfl rfl
        | block =>
          exact inv_move h t f { f with pc := .call } r hstk (by rw [put_self]) (by simp [hpc, Pc.early]) rfl rfl
              (ou _ _ rfl) rfl rfl (fun _ h => h) rfl rfl
        | unblock =>
          exact inv_move h t f { f with pc := .clear } r hstk (by rw [put_self]) (by simp [hpc, Pc.early]) rfl rfl
              (ou _ _ rfl) rfl rfl (fun _ h => h) rfl rfl
        | clear =>
          exact inv_move h t f { f with pc := .ret } r hstk (by rw [put_self]) (by simp [hpc, Pc.early]) rfl rfl
              (ou _ _ rfl) rfl rfl (fun _ h => h) rfl rfl
        | ret =>
          exact inv_drop h t f r hstk (by rw [put_self]) (by simp [hpc, Pc.early]) (ou _ _ rfl) rfl rfl rfl rfl rfl
        | ablock =>
          exact inv_move h t f { f with pc := .ainst } r hstk (by rw [put_self]) (by simp [hpc, Pc.early]) rfl rfl
              (ou _ _ rfl) rfl rfl (fun _ h => h) rfl rfl
        | ainst =>
          exact inv_move h t f { f with pc := .astore } r hstk (by rw [put_self]) (by simp [hpc, Pc.early]) rfl rfl
              (ou _ _ rfl) rfl rfl (fun _ h => h) rfl rfl
        | astore =>
          refine inv_move h t f { f with pc := .aunblock } r hstk (by rw [put_self]) (by simp [hpc, Pc.early]) rfl rfl
              (ou _ _ rfl) rfl rfl (fun s hs => ?_) rfl rfl
          show Function.update st.reg f.sig true s = true
          by_cases e : s = f.sig
          · simp [e]
          · rw [Function.update_of_ne e]; exact hs
        | aunblock =>
          exact inv_move h t f { f with pc := .adone } r hstk (by rw [put_self]) (by simp [hpc, Pc.early]) rfl rfl
              (ou _ _ rfl) rfl rfl (fun _ h => h) rfl rfl
        | adone =>
          exact inv_drop h t f r hstk (by rw [put_self]) (by simp [hpc, Pc.early]) (ou _ _ rfl) rfl rfl rfl rfl rfl
        | call =>
          simp only
          have hearly : f.pc.early = true := by simp [hpc, Pc.early]
          obtain ⟨hgot, hreg⟩ := h.frames t f (by rw [hstk]; simp) hearly
          have hpt : pre (st.th t).stack = f.id :: pre r := by rw [hstk, pre_cons, hearly]; rfl
          set st' : St := { st with calls := if st.reg f.sig then st.calls ++ [(f.id, f.sig)] else st.calls }.put t
            { st.th t with stack := { f with pc := .unblock } :: r } with hst
          have hpt' : pre (st'.th t).stack = pre r := by rw [hst, put_self, pre_cons]; rfl
          have hpu : ∀ u, u ≠ t → st'.th u = st.th u := fun u hu => by rw [hst, put_other _ _ hu]
          have hnd : (f.id :: pre r).Nodup := by rw [← hpt]; exact h.nodup t
          have hsub : ∀ u i, i ∈ pre (st'.th u).stack → i ∈ pre (st.th u).stack := by
            intro u i hi
            by_cases e : u = t
            · subst e; rw [hpt'] at hi; rw [hpt]; simp [hi]
            · rw [hpu u e] at hi; exact hi
          have hgone : ∀ u, f.id ∉ pre (st'.th u).stack := by
            intro u hm
            by_cases e : u = t
            · subst e; rw [hpt'] at hm; exact (List.nodup_cons.mp hnd).1 hm
            · rw [hpu u e] at hm
              exact h.disj t u (Ne.symm e) f.id (by rw [hpt]; simp) hm
          constructor
          · intro u
            by_cases e : u = t
            · subst e; rw [hpt']; exact (List.nodup_cons.mp hnd).2
            · rw [hpu u e]; exact h.nodup u
          · intro u v huv i hi hv
            exact h.disj u v huv i (hsub u i hi) (hsub v i hv)
          · intro u i hi; exact h.bound u i (hsub u i hi)
          · intro u g hg he
            by_cases e : u = t
            · subst e
              rw [hst, put_self] at hg
              rcases List.mem_cons.mp hg with rfl | hg
              · simp [Pc.early] at he
              · exact h.frames u g (by rw [hstk]; simp [hg]) he
            · rw [hpu u e] at hg; exact h.frames u g hg he
          · show ((if st.reg f.sig then st.calls ++ [(f.id, f.sig)] else st.calls).map Prod.fst).Nodup
            split
            · rw [List.map_append, List.nodup_append]
              refine ⟨h.cnodup, by simp, ?_⟩
              intro a ha b hb hab
              simp at hb
              subst hb
              subst hab
              obtain ⟨c, hcm, hc1⟩ := List.mem_map.mp ha
              have := (h.cdone c hcm).2.2 t
              rw [hc1, hpt] at this
              exact this (by simp)
            · exact h.cnodup
          · intro c hcm
            have hcm' : c ∈ (if st.reg f.sig then st.calls ++ [(f.id, f.sig)] else st.calls) := hcm
            have old : c ∈ st.calls → c.1 < st'.next ∧ st'.got c.1 = c.2 ∧ ∀ u, c.1 ∉ pre (st'.th u).stack := by
              intro hm
              obtain ⟨a, b, d⟩ := h.cdone c hm
              exact ⟨a, b, fun u hm => d u (hsub u _ hm)⟩
            split at hcm'
            · rcases List.mem_append.mp hcm' with hcm' | hcm'
              · exact old hcm'
              · simp at hcm'
                subst hcm'
                exact ⟨h.bound t f.id (by rw [hpt]; simp), hgot, hgone⟩
            · exact old hcm'
          · intro i hi
            have hcalls : st'.calls = if st.reg f.sig then st.calls ++ [(f.id, f.sig)] else st.calls := rfl
            have hmono : ∀ c ∈ st.calls, c ∈ st'.calls := by
              intro c hcm
              rw [hcalls]
              split
              · exact List.mem_append.mpr (Or.inl hcm)
              · exact hcm
            by_cases e : i = f.id
            · rcases hreg with hreg | hreg
              · exact Or.inl ⟨f.sig, by rw [hcalls, if_pos hreg, e]; exact List.mem_append.mpr (Or.inr (by simp))⟩
              · exact Or.inr (Or.inr (by rw [e]; exact hreg))
            · rcases h.cover i hi with ⟨s, a⟩ | ⟨u, a⟩ | a
              · exact Or.inl ⟨s, hmono _ a⟩
              · refine Or.inr (Or.inl ⟨u, ?_⟩)
                by_cases eu : u = t
                · subst eu; rw [hpt] at a; rw [hpt']
                  simp [e] at a
                  exact a
                · rw [hpu u eu]; exact a
              · exact Or.inr (Or.inr a)

theorem inv_run {st : St} (h : Inv st) (l : List Ev) : Inv (run st l) := by
  induction l generalizing st with
  | nil => exact h
  | cons e l ih => exact ih (inv_ev h e)

theorem inv_fresh {st : St} (h : Fresh st) : Inv st := by
  have hp : ∀ t, pre (st.th t).stack = [] := fun t => by rw [h.stack t]; rfl
  constructor
  · intro t; rw [hp]; simp
  · intro t u _ i hi; rw [hp] at hi; simp at hi
  · intro t i hi; rw [hp] at hi; simp at hi
  · intro t f hf; rw [h.stack t] at hf; simp at hf
  · rw [h.calls]; simp
  · intro c hc; rw [h.calls] at hc; simp at hc
  · intro i hi; rw [h.next] at hi; omega

/-- **C232**, what holds for every schedule of any number of threads: no arrival is delivered twice or as another signal, and
when all handlers have returned and the process still exists, every arrival has been delivered that came after the callback of
its signal was stored.  Missing: that the process still exists (`two_signals_end_the_process`), and arrivals during
`events_add_signal` (`lost_while_adding`). -/
theorem delivered_once_partial (st : St) (h : Fresh st) (l : List Ev) :
    ((run st l).calls.map Prod.fst).Nodup ∧
    (∀ c ∈ (run st l).calls, c.1 < (run st l).next ∧ (run st l).got c.1 = c.2) ∧
    ((∀ t, ((run st l).th t).stack = []) → ∀ i < (run st l).next, (run st l).late i = false →
      (i, (run st l).got i) ∈ (run st l).calls) := by
  have hi := inv_run (inv_fresh h) l
  refine ⟨hi.cnodup, fun c hc => ⟨(hi.cdone c hc).1, (hi.cdone c hc).2.1⟩, fun hs i hlt hnl => ?_⟩
  rcases hi.cover i hlt with ⟨s, a⟩ | ⟨t, a⟩ | a
  · have := (hi.cdone _ a).2.1
    simp only at this
    rw [this]; exact a
  · rw [hs t] at a; simp [pre] at a
  · rw [hnl] at a; cases a

/-! ## One at a time -/

/-- A signal and its whole handler. -/
def one (t : Nat) (s : Sig) : List Ev := .arrive t s :: List.replicate 7 (.step t)

/-- A quiet state after one signal: the callback was called, everything else is as before. -/
theorem run_one (st : St) (h : Quiet st) (t : Nat) (s : Sig) (hm : (st.th t).mask s = false) (hr : st.reg s = true)
    (hi : st.inst s = true) :
    run st (one t s) =
      { st with
        all := enter (st.th t).mask s
        next := st.next + 1
        got := Function.update st.got st.next s
        late := Function.update st.late st.next false
        calls := st.calls ++ [(st.next, s)] } := by
  have h1 := h.stack t
  have h2 := h.flag
  have h3 := h.live
  obtain ⟨th, all, flag, exited, reg, inst, next, got, late, calls⟩ := st
  simp only at h1 h2 h3 hm hr hi
  subst h2 h3
  have ht : th t = ⟨(th t).mask, []⟩ := by
    rw [← h1]
  simp [run, one, List.replicate, ev, hm, hr, hi, stepTop, St.put, Function.update_idem, h1]
  exact ht.symm

/-- **C232**, what holds: signals that arrive one after the other, each after the handler of the one before has returned, in
whatever threads, are each delivered once and in this order, and all signal masks stay as they were. -/
theorem one_by_one_partial (st : St) (h : Quiet st) (l : List (Nat × Sig))
    (hl : ∀ x ∈ l, (st.th x.1).mask x.2 = false ∧ st.reg x.2 = true ∧ st.inst x.2 = true) :
    Quiet (run st (l.flatMap fun x => one x.1 x.2)) ∧
    (run st (l.flatMap fun x => one x.1 x.2)).th = st.th ∧
    (run st (l.flatMap fun x => one x.1 x.2)).calls.map Prod.snd = st.calls.map Prod.snd ++ l.map Prod.snd := by
  induction l generalizing st with
  | nil => exact ⟨h, rfl, by simp [run]⟩
  | cons x l ih =>
    obtain ⟨hm, hr, hi⟩ := hl x (by simp)
    have e := run_one st h x.1 x.2 hm hr hi
    have hcat : run st ((x :: l).flatMap fun x => one x.1 x.2) =
        run (run st (one x.1 x.2)) (l.flatMap fun x => one x.1 x.2) := by
      simp only [run, List.flatMap_cons, List.foldl_append]
    rw [hcat]
    have hq : Quiet (run st (one x.1 x.2)) := by
      rw [e]; exact ⟨h.stack, h.flag, h.live⟩
    obtain ⟨a, b, c⟩ := ih (run st (one x.1 x.2)) hq (by
      intro y hy
      rw [e]
      exact hl y (by simp [hy]))
    refine ⟨a, by rw [b, e], ?_⟩
    rw [c, e]
    simp

/-! ## At the same time -/

/-- **C232**, false of the code: while the handler of a signal runs, a second one ends the process, in another thread or, before
the mask is set, in the same one. -/
theorem two_signals_end_the_process (st : St) (h : Quiet st) (t u : Nat) (a b : Sig)
    (ha : (st.th t).mask a = false) (hb : (st.th u).mask b = false) (hra : st.inst a = true) (hrb : st.inst b = true)
    (hab : t = u → a ≠ b) :
    (run st [.arrive t a, .step t, .step t, .arrive u b, .step u]).exited = true := by
  have h1 := h.stack t
  have h2 := h.flag
  have h3 := h.live
  by_cases e : u = t
  · subst e
    have hab' : b ≠ a := Ne.symm (hab rfl)
    simp [run, ev, ha, hra, h3, stepTop, St.put, h2, h1, enter, hb, hrb, hab']
  · simp [run, ev, ha, hra, h3, stepTop, St.put, h2, h1, e, hb, hrb, h.stack u]

/-- **C232**, false of the code: two threads that add a signal at the same time; afterwards the first has the signal mask of the
second. -/
theorem adding_mixes_masks (st : St) (h : Quiet st) (t u : Nat) (hut : u ≠ t) (a b : Sig) :
    let l := [.add t a, .add u b, .step t, .step u, .step t, .step t, .step t, .step t, .step u, .step u, .step u, .step u]
    (∀ v, ((run st l).th v).stack = []) ∧ ((run st l).th t).mask = (st.th u).mask := by
  have h1 := h.stack t
  have h2 := h.stack u
  have h3 := h.live
  have hne : t ≠ u := Ne.symm hut
  have key : ((run st [.add t a, .add u b, .step t, .step u, .step t, .step t, .step t, .step t, .step u, .step u, .step u, .step u]).th) =
      Function.update (Function.update st.th t ⟨(st.th u).mask, []⟩) u ⟨(st.th u).mask, []⟩ := by
    simp only [run, List.foldl, ev, h3, stepTop, St.put, Bool.false_eq_true, if_false, h1, h2, Function.update_self,
      Function.update_of_ne hut, Function.update_of_ne hne]
    funext v
    by_cases e1 : v = t
    · subst e1; simp [hne]
    · by_cases e2 : v = u
      · subst e2; simp
      · simp [e1, e2]
  refine ⟨fun v => ?_, ?_⟩
  · rw [key]
    by_cases e2 : v = u
    · subst e2; simp
    · by_cases e1 : v = t
      · subst e1; simp [e2]
      · simp [e1, e2, h.stack v]
  · rw [key]; simp [hne]

/-- **C232**, false of the code: a signal that arrives in another thread after the handler is installed and before the callback
is stored is lost, whatever the masks: no callback is called, and all calls have returned. -/
theorem lost_while_adding (st : St) (h : Quiet st) (t u : Nat) (hut : u ≠ t) (a : Sig) (hm : (st.th u).mask a = false)
    (hr : st.reg a = false) :
    let st' := run st ([.add t a, .step t, .step t] ++ one u a ++ [.step t, .step t, .step t])
    st'.exited = false ∧ st'.next = st.next + 1 ∧ st'.calls = st.calls ∧ st'.reg a = true ∧ (st'.th t).stack = [] ∧
      (st'.th u).stack = [] := by
  have h1 := h.stack t
  have h2 := h.stack u
  have h3 := h.live
  have h4 := h.flag
  have hne : t ≠ u := Ne.symm hut
  simp [run, one, List.replicate, ev, h3, stepTop, St.put, h1, h2, hut, hne, hm, hr, h4]

/-- Two threads, nothing blocked, signals 2 and 15 registered. -/
def demo : St := ⟨fun _ => ⟨fun _ => false, []⟩, fun _ => false, false, false, fun s => s == 2 || s == 15, fun s => s == 2 || s == 15, 0,
  fun _ => 0, fun _ => false, []⟩

example : Fresh demo := ⟨⟨fun _ => rfl, rfl, rfl⟩, rfl, rfl⟩
example : (run demo (one 0 2 ++ one 1 15)).calls = [(0, 2), (1, 15)] := by
  simp [run, one, List.replicate, ev, stepTop, St.put, demo]
example : (run demo [.arrive 0 2, .step 0, .step 0, .arrive 1 15, .step 1]).exited = true := by
  simp [run, ev, stepTop, St.put, demo]

/-- **C232, the part that holds.**  While a callback runs, and while a signal is added, no signal interrupts the thread, whichever are installed: all are blocked, and
stay with the kernel. -/
theorem not_interrupted_partial (st : St) (t : Nat) (f : Frame) (r : List Frame) (hs : (st.th t).stack = f :: r) (hpc : f.pc = .block ∨ f.pc = .ablock) (l : List Sig) :
    run st (.step t :: l.map (Ev.arrive t)) = run st [.step t] := by
  show run (ev st (.step t)) (l.map (Ev.arrive t)) = ev st (.step t)
  have key : (ev st (.step t)).exited = true ∨ ((ev st (.step t)).th t).mask = full := by
    unfold ev
    split
    · exact Or.inl ‹_›
    · right
      simp only [stepTop, hs]
      rcases hpc with h | h <;> rw [h] <;> simp only [put_self]
  induction l with
  | nil => rfl
  | cons a l ih =>
    have h1 : ev (ev st (.step t)) (.arrive t a) = ev st (.step t) := by
      generalize ev st (.step t) = s2 at key ⊢
      unfold ev
      rcases key with h | h
      · rw [if_pos h]
      · split
        · rfl
        · simp [h, full]
    rw [List.map_cons]
    show run (ev (ev st (.step t)) (.arrive t a)) _ = _
    rw [h1]
    exact ih

/-- **C232, the part that holds.**  A signal does not interrupt its own handler, at any point of it. -/
theorem own_signal_waits_partial (st : St) (h : Quiet st) (t : Nat) (s : Sig) (hm : (st.th t).mask s = false) (hi : st.inst s = true) (k : Nat) (hk : k < 7) :
    run st (.arrive t s :: List.replicate k (.step t) ++ [.arrive t s]) = run st (.arrive t s :: List.replicate k (.step t)) := by
  have h1 := h.stack t
  have h2 := h.flag
  have h3 := h.live
  have hk' : k = 0 ∨ k = 1 ∨ k = 2 ∨ k = 3 ∨ k = 4 ∨ k = 5 ∨ k = 6 := by omega
  rcases hk' with rfl | rfl | rfl | rfl | rfl | rfl | rfl <;>
    simp [run, List.replicate, ev, hm, hi, stepTop, St.put, h1, h2, h3, enter, full]

/-- **C232**, false of the code: after the callback the mask is restored before the flag is cleared, so another signal that waited for the end of the callback, in the same
thread, ends the process as well. -/
theorem after_the_callback_ends_the_process (st : St) (h : Quiet st) (t : Nat) (a b : Sig) (ha : (st.th t).mask a = false) (hb : (st.th t).mask b = false)
    (hra : st.inst a = true) (hrb : st.inst b = true) (hab : a ≠ b) :
    (run st (.arrive t a :: List.replicate 5 (.step t) ++ [.arrive t b, .step t])).exited = true := by
  have h1 := h.stack t
  have h2 := h.flag
  have h3 := h.live
  simp [run, List.replicate, ev, ha, hra, h3, stepTop, St.put, h2, h1, enter, hb, hrb, Ne.symm hab]

end Verif.Io.SigRace
