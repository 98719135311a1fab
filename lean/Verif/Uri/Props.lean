import Verif.Uri.Lemmas

/-!
# C21, C22, C23
-/

namespace Verif.Uri
open Verif.Str

theorem Free.append {seps a b : Bytes} (ha : Free seps a) (hb : Free seps b) : Free seps (a ++ b) := by
  intro c hc hm
  rcases List.mem_append.1 hm with h | h
  · exact ha c hc h
  · exact hb c hc h

theorem Free.mono {s t a : Bytes} (h : Free t a) (hs : s ⊆ t) : Free s a := fun c hc => h c (hs hc)

theorem free_lit {seps : Bytes} {c : UInt8} (h : c ∉ seps) : Free seps [c] := by
  intro x hx hm
  rw [List.mem_singleton] at hm
  exact h (hm ▸ hx)

theorem free_digits {t : Bytes} (hd : ∀ c ∈ t, 48 ≤ c.toNat ∧ c.toNat ≤ 57) : Free [58, 64, 47, 63, 35] t := by
  intro c hc hm
  have := hd c hm
  simp only [List.mem_cons, List.not_mem_nil, or_false] at hc
  rcases hc with rfl | rfl | rfl | rfl | rfl <;> exact absurd this (by decide)

theorem port_free {p : Parts} (h : WellFormed p) : Free [64, 47, 63, 35] (optText [58] p.port) := by
  cases ht : p.port with
  | none => intro c _ hm; simp [optText] at hm
  | some t =>
    refine Free.append (free_lit (by decide)) ((free_digits (h.port t ht).2.2.1).mono (by decide))

theorem authority_free {p : Parts} (h : WellFormed p) : Free [47, 63, 35] p.authority := by
  refine Free.append ?_ (Free.append (h.host.2.1.mono (by decide)) ((port_free h).mono (by decide)))
  cases hu : p.user with
  | none => intro c _ hm; simp [userText] at hm
  | some uw =>
    obtain ⟨u, w⟩ := uw
    have h1 : Free [47, 63, 35] u := (h.user u w hu).1.mono (by decide)
    cases w with
    | none => exact Free.append h1 (free_lit (by decide))
    | some w =>
      exact Free.append (Free.append (Free.append h1 (free_lit (by decide))) ((h.pass u w hu).1.mono (by decide))) (free_lit (by decide))

theorem tail_head {p : Parts} (h : WellFormed p) : p.tail = [] ∨ ∃ c ∈ ([47, 63, 35] : Bytes), p.tail.head? = some c := by
  unfold Parts.tail
  cases h1 : p.path with
  | some t =>
    have := (h.path t h1).1
    cases t with
    | nil => simp at this
    | cons x t =>
      simp only [List.head?_cons, Option.some.injEq] at this
      subst this
      exact .inr ⟨47, by simp, by simp [optText]⟩
  | none =>
    cases h2 : p.query with
    | some t => exact .inr ⟨63, by simp, by simp [optText]⟩
    | none =>
      cases h3 : p.fragment with
      | some t => exact .inr ⟨35, by simp, by simp [optText]⟩
      | none => exact .inl (by simp [optText])

theorem hostPort_parts {p : Parts} (h : WellFormed p) (u : Uri) (hu : u.port = 0) :
    hostPort u (p.host ++ optText [58] p.port) = some { u with host := some p.host, port := (p.port.map decValue).getD 0 } := by
  cases hp : p.port with
  | none =>
    rw [show p.host ++ optText [58] none = p.host by simp [optText], hostPort_plain h.host.1 h.host.2.2 h.colon]
    simp [hu]
  | some t =>
    obtain ⟨h1, h2, h3, h4⟩ := h.port t hp
    rw [show p.host ++ optText [58] (some t) = p.host ++ [58] ++ t by simp [optText],
      hostPort_port hu h.host.1 h.host.2.2 h1 h2 h3 h4]
    rfl

theorem login_parts {p : Parts} (h : WellFormed p) (u : Uri) (hu : u.user = none ∧ u.pass = none) :
    login u p.authority = ({ u with user := p.user.map (·.1), pass := p.user.bind (·.2) }, p.host ++ optText [58] p.port) := by
  have h64 : 64 ∉ p.host ++ optText [58] p.port := by
    have := Free.append h.host.2.1 (port_free h)
    exact this 64 (by simp)
  unfold Parts.authority
  cases hus : p.user with
  | none =>
    rw [show userText none ++ (p.host ++ optText [58] p.port) = p.host ++ optText [58] p.port from rfl, login_none h64]
    cases u
    simp only at hu
    obtain ⟨rfl, rfl⟩ := hu
    rfl
  | some uw =>
    obtain ⟨us, w⟩ := uw
    obtain ⟨f1, p1⟩ := h.user us w hus
    cases w with
    | none =>
      rw [show userText (some (us, none)) = us ++ [64] from rfl, login_user h64 (f1 58 (by simp)) p1]
      simp [← hu.2]
    | some w =>
      rw [show userText (some (us, some w)) = us ++ [58] ++ w ++ [64] from rfl, login_pass h64 (f1 58 (by simp)) p1 (h.pass us w hus).2]
      rfl

theorem parseHost_parts {p : Parts} (h : WellFormed p) :
    parseHost { scheme := some p.scheme } (p.authority ++ p.tail) = some p.uri := by
  unfold parseHost
  have hc : cspn (p.authority ++ p.tail) [47, 63, 35] = p.authority.length := cspn_append (authority_free h) (tail_head h)
  rw [hc]
  simp only [List.take_left, List.drop_left]
  rw [login_parts h _ ⟨rfl, rfl⟩]
  simp only
  rw [hostPort_parts h _ rfl]
  simp only
  by_cases ht : p.tail = []
  · rw [if_pos ht]
    have h1 : p.path = none := by
      cases hp : p.path with
      | none => rfl
      | some t =>
        have := (h.path t hp).1
        have hn : t = [] := by simpa [Parts.tail, hp, optText] using (List.append_eq_nil_iff.1 ht).1
        subst hn
        simp at this
    have h2 : p.query = none := by
      cases hp : p.query with
      | none => rfl
      | some t => simp [Parts.tail, hp, optText] at ht
    have h3 : p.fragment = none := by
      cases hp : p.fragment with
      | none => rfl
      | some t => simp [Parts.tail, hp, optText] at ht
    simp [Parts.uri, h1, h2, h3]
  · rw [if_neg ht]
    unfold Parts.tail
    unfold Parts.tail at ht
    rw [justPath_parts ⟨rfl, rfl, rfl⟩ h.path h.query h.fragment ht]
    rfl

theorem schemeChar_of {s : Bytes} (h : SchemeText s) : s.all schemeChar = true ∧ 58 ∉ s ∧ Plain s := by
  refine ⟨?_, ?_, ?_⟩
  · rw [List.all_eq_true]
    intro c hc
    unfold schemeChar isAlpha isDigit
    simp only [Bool.or_eq_true, Bool.and_eq_true, decide_eq_true_eq, beq_iff_eq]
    rcases h.2 c hc with h | h | h | h | h | h
    · exact .inl (.inl (.inl (.inl (.inl h))))
    · exact .inl (.inl (.inl (.inl (.inr h))))
    · exact .inl (.inl (.inl (.inr h)))
    · exact .inl (.inl (.inr h))
    · exact .inl (.inr h)
    · exact .inr h
  · intro hm
    rcases h.2 58 hm with h | h | h | h | h | h <;> exact absurd h (by decide)
  · intro c hc
    rcases h.2 c hc with h | h | h | h | h | h
    · omega
    · omega
    · omega
    all_goals subst h; decide

theorem urlParse_parts {p : Parts} (h : WellFormed p) : urlParse p.text = some p.uri := by
  obtain ⟨s1, s2, s3⟩ := schemeChar_of h.scheme
  obtain ⟨k, hk⟩ : ∃ k, p.scheme.length = k + 1 := ⟨p.scheme.length - 1, by
    have := List.length_pos_iff.2 h.scheme.1; omega⟩
  have hf : find p.text 58 = some (k + 1) := by rw [← hk]; exact find_append s2
  have ht : p.text.take (k + 1) = p.scheme := by rw [← hk]; exact List.take_left
  have hd : p.text.drop (k + 1 + 1) = 47 :: 47 :: (p.authority ++ p.tail) := by
    rw [← hk, ← List.drop_drop]
    unfold Parts.text
    rw [List.drop_left]
    rfl
  unfold urlParse
  rw [hf]
  simp only
  rw [ht, hd]
  simp only [s1, not_true_eq_false, if_false, List.head?_cons, ne_eq]
  rw [if_neg (by simp), if_pos (by simp)]
  have hl : (47 :: 47 :: (p.authority ++ p.tail)).drop 2 = p.authority ++ p.tail := rfl
  rw [hl, if_neg]
  · rw [comp_plain s3]
    exact parseHost_parts h
  · rintro ⟨_, hh⟩
    have hne : p.authority ≠ [] := by
      intro he
      unfold Parts.authority at he
      exact h.host.1 (List.append_eq_nil_iff.1 (List.append_eq_nil_iff.1 he).2).1
    cases ha : p.authority with
    | nil => exact hne ha
    | cons x l =>
      rw [ha] at hh
      simp only [List.cons_append, List.head?_cons, Option.some.injEq] at hh
      have := authority_free h 47 (by simp)
      rw [ha, hh] at this
      exact this (List.mem_cons_self ..)

/-- Claim C21 for hosts with a dot and for the host name of the machine: every well-formed URI is split into its parts. -/
theorem parse_components_partial (hostname : Bytes) (p : Parts) (h : WellFormed p) (hh : 46 ∈ p.host ∨ p.host = hostname) :
    parseUri hostname p.text = some p.uri := by
  unfold parseUri
  rw [if_neg (by unfold Parts.text; simp), urlParse_parts h]
  simp only [Parts.uri]
  rw [if_pos hh]

/-- Against C21: any other well-formed URI is refused. -/
theorem parse_single_label_refused (hostname : Bytes) (p : Parts) (h : WellFormed p) (h1 : 46 ∉ p.host) (h2 : p.host ≠ hostname) :
    parseUri hostname p.text = none := by
  unfold parseUri
  rw [if_neg (by unfold Parts.text; simp), urlParse_parts h]
  simp only [Parts.uri]
  rw [if_neg (by simp [h1, h2])]

/-- http://me:pw@a.b:80/x?q#f -/
def demo : Parts where
  scheme := "http".toUTF8.toList
  user := some ("me".toUTF8.toList, some "pw".toUTF8.toList)
  host := "a.b".toUTF8.toList
  port := some "80".toUTF8.toList
  path := some "/x".toUTF8.toList
  query := some "q".toUTF8.toList
  fragment := some "f".toUTF8.toList

example : demo.text = "http://me:pw@a.b:80/x?q#f".toUTF8.toList := by decide +kernel

instance (s : Bytes) : Decidable (Plain s) := by unfold Plain; infer_instance
instance (s t : Bytes) : Decidable (Free s t) := by unfold Free; infer_instance
instance (s : Bytes) : Decidable (SchemeText s) := by unfold SchemeText; infer_instance

theorem demo_wellFormed : WellFormed demo where
  scheme := by decide +kernel
  user := by rintro u w h; simp only [demo, Option.some.injEq, Prod.mk.injEq] at h; obtain ⟨rfl, _⟩ := h; decide +kernel
  pass := by
    rintro u w h; simp only [demo, Option.some.injEq, Prod.mk.injEq] at h; obtain ⟨_, rfl⟩ := h; decide +kernel
  host := by decide +kernel
  colon := .inl (by decide +kernel)
  port := by rintro t h; simp only [demo, Option.some.injEq] at h; subst h; decide +kernel
  path := by rintro t h; simp only [demo, Option.some.injEq] at h; subst h; decide +kernel
  query := by rintro t h; simp only [demo, Option.some.injEq] at h; subst h; decide +kernel
  fragment := by rintro t h; simp only [demo, Option.some.injEq] at h; subst h; decide +kernel

example : parseUri [] demo.text = some demo.uri := parse_components_partial [] demo demo_wellFormed (.inl (by decide +kernel))

/-! ## C23: every component is a slice of the text with control characters masked -/

/-- Some slice of the text, with `_` for control characters. -/
def Slice (str c : Bytes) : Prop := ∃ sl, sl <:+: str ∧ c = comp sl

structure AllSlices (str : Bytes) (u : Uri) : Prop where
  scheme : ∀ c, u.scheme = some c → Slice str c
  user : ∀ c, u.user = some c → Slice str c
  pass : ∀ c, u.pass = some c → Slice str c
  host : ∀ c, u.host = some c → Slice str c
  path : ∀ c, u.path = some c → Slice str c
  query : ∀ c, u.query = some c → Slice str c
  fragment : ∀ c, u.fragment = some c → Slice str c

theorem AllSlices.init (str : Bytes) : AllSlices str {} := by
  constructor <;> intro c hc <;> simp at hc

theorem slice_some {str l c : Bytes} (hl : l <:+: str) (h : some (comp l) = some c) : Slice str c :=
  ⟨l, hl, (Option.some.inj h).symm⟩

theorem drop_infix {str l : Bytes} (h : l <:+: str) (n : Nat) : l.drop n <:+: str := (List.drop_suffix n l).isInfix.trans h
theorem take_infix {str l : Bytes} (h : l <:+: str) (n : Nat) : l.take n <:+: str := (List.take_prefix n l).isInfix.trans h

theorem takeFragment_slices {str l : Bytes} {u : Uri} (h : AllSlices str u) (hl : l <:+: str) :
    AllSlices str (takeFragment u l).1 ∧ (takeFragment u l).2 <:+: str := by
  unfold takeFragment
  split
  · refine ⟨?_, take_infix hl _⟩
    simp only
    split
    · exact ⟨h.scheme, h.user, h.pass, h.host, h.path, h.query, fun c hc => slice_some (drop_infix hl _) hc⟩
    · exact h
  · exact ⟨h, hl⟩

theorem takeQuery_slices {str l : Bytes} {u : Uri} (h : AllSlices str u) (hl : l <:+: str) :
    AllSlices str (takeQuery u l).1 ∧ (takeQuery u l).2 <:+: str := by
  unfold takeQuery
  split
  · refine ⟨?_, take_infix hl _⟩
    simp only
    split
    · exact ⟨h.scheme, h.user, h.pass, h.host, h.path, fun c hc => slice_some (drop_infix hl _) hc, h.fragment⟩
    · exact h
  · exact ⟨h, hl⟩

theorem justPath_slices {str l : Bytes} {u : Uri} (h : AllSlices str u) (hl : l <:+: str) : AllSlices str (justPath u l) := by
  obtain ⟨h1, l1⟩ := takeFragment_slices h hl
  obtain ⟨h2, l2⟩ := takeQuery_slices h1 l1
  unfold justPath
  simp only
  split
  · exact ⟨h2.scheme, h2.user, h2.pass, h2.host, fun c hc => slice_some l2 hc, h2.query, h2.fragment⟩
  · exact h2

theorem login_slices {str l : Bytes} {u : Uri} (h : AllSlices str u) (hl : l <:+: str) :
    AllSlices str (login u l).1 ∧ (login u l).2 <:+: str := by
  unfold login
  split
  · refine ⟨?_, drop_infix hl _⟩
    simp only
    split
    · exact ⟨h.scheme, fun c hc => slice_some (take_infix (take_infix hl _) _) hc, fun c hc => slice_some (drop_infix (take_infix hl _) _) hc,
        h.host, h.path, h.query, h.fragment⟩
    · exact ⟨h.scheme, fun c hc => slice_some (take_infix hl _) hc, h.pass, h.host, h.path, h.query, h.fragment⟩
  · exact ⟨h, hl⟩

theorem hostPort_slices {str l : Bytes} {u v : Uri} (h : AllSlices str u) (hl : l <:+: str) (hv : hostPort u l = some v) :
    AllSlices str v := by
  unfold hostPort at hv
  simp only at hv
  split at hv
  · split at hv
    · split at hv
      · simp at hv
      · simp only [Option.some.injEq] at hv
        subst hv
        exact ⟨h.scheme, h.user, h.pass, fun c hc => slice_some (take_infix hl _) hc, h.path, h.query, h.fragment⟩
    · simp at hv
  · split at hv
    · simp at hv
    · simp only [Option.some.injEq] at hv
      subst hv
      exact ⟨h.scheme, h.user, h.pass, fun c hc => slice_some hl hc, h.path, h.query, h.fragment⟩

theorem parseHost_slices {str l : Bytes} {u v : Uri} (h : AllSlices str u) (hl : l <:+: str) (hv : parseHost u l = some v) :
    AllSlices str v := by
  unfold parseHost at hv
  obtain ⟨h1, l1⟩ := login_slices h (take_infix hl (cspn l [47, 63, 35]))
  simp only at hv
  split at hv
  · rename_i w hw
    have h2 := hostPort_slices h1 l1 hw
    split at hv
    · simp only [Option.some.injEq] at hv; subst hv; exact h2
    · simp only [Option.some.injEq] at hv; subst hv; exact justPath_slices h2 (drop_infix hl _)
  · simp at hv

theorem parsePort_slices {str : Bytes} {u v : Uri} {e : Nat} (h : AllSlices str u) (hv : parsePort u str e = some v) : AllSlices str v := by
  have hs : (if twoSlashes str then str.drop 2 else str) <:+: str := by
    split
    · exact drop_infix (List.infix_refl _) _
    · exact List.infix_refl _
  unfold parsePort at hv
  simp only at hv
  split at hv
  · split at hv
    · refine parseHost_slices ?_ hs hv
      exact ⟨h.scheme, h.user, h.pass, h.host, h.path, h.query, h.fragment⟩
    · simp at hv
  · split at hv
    · simp at hv
    · split at hv
      · rename_i ht
        rw [if_pos ht] at hs
        exact parseHost_slices h hs hv
      · simp only [Option.some.injEq] at hv; subst hv; exact justPath_slices h (List.infix_refl _)

theorem urlParse_slices {str : Bytes} {u : Uri} (hu : urlParse str = some u) : AllSlices str u := by
  have hr : str <:+: str := List.infix_refl _
  have hsch : ∀ e, AllSlices str { scheme := some (comp (str.take e)) } := fun e =>
    ⟨fun c hc => slice_some (take_infix hr _) hc, by intro c hc; simp at hc, by intro c hc; simp at hc, by intro c hc; simp at hc,
      by intro c hc; simp at hc, by intro c hc; simp at hc, by intro c hc; simp at hc⟩
  unfold urlParse at hu
  split at hu
  · exact parsePort_slices (AllSlices.init str) hu
  · rename_i e _ _
    simp only at hu
    split at hu
    · split at hu
      · exact parsePort_slices (AllSlices.init str) hu
      · split at hu
        · exact parseHost_slices (AllSlices.init str) (drop_infix hr _) hu
        · simp only [Option.some.injEq] at hu; subst hu; exact justPath_slices (AllSlices.init str) hr
    · split at hu
      · simp only [Option.some.injEq] at hu; subst hu; exact hsch _
      · split at hu
        · split at hu
          · exact parsePort_slices (AllSlices.init str) hu
          · simp only [Option.some.injEq] at hu; subst hu; exact justPath_slices (hsch _) (drop_infix hr _)
        · split at hu
          · split at hu
            · simp only [Option.some.injEq] at hu; subst hu
              refine justPath_slices (hsch _) ?_
              split
              · exact drop_infix (drop_infix (drop_infix hr _) _) _
              · exact drop_infix (drop_infix hr _) _
            · exact parseHost_slices (hsch _) (drop_infix (drop_infix hr _) _) hu
          · simp only [Option.some.injEq] at hu; subst hu; exact justPath_slices (hsch _) (drop_infix hr _)
  · split at hu
    · exact parseHost_slices (AllSlices.init str) (drop_infix hr _) hu
    · simp only [Option.some.injEq] at hu; subst hu; exact justPath_slices (AllSlices.init str) hr

/-- The components of a record. -/
def Component (u : Uri) (c : Bytes) : Prop :=
  u.scheme = some c ∨ u.user = some c ∨ u.pass = some c ∨ u.host = some c ∨ u.path = some c ∨ u.query = some c ∨ u.fragment = some c

theorem parseUri_urlParse {hostname str : Bytes} {u : Uri} (h : parseUri hostname str = some u) : urlParse str = some u := by
  unfold parseUri at h
  split at h
  · simp at h
  · split at h
    · simp at h
    · split at h
      · simp at h
      · split at h
        · simp only [Option.some.injEq] at h; subst h; assumption
        · simp at h

/-- Claim C23, for all texts: a component has no control character, it has the length of the slice of the text it was taken from, and
every byte of the slice that is no control character is kept. -/
theorem components_have_no_control (hostname str : Bytes) (u : Uri) (h : parseUri hostname str = some u) (c : Bytes) (hc : Component u c) :
    (∀ x ∈ c, ¬ (x.toNat < 32 ∨ x.toNat = 127)) ∧
      ∃ sl, sl <:+: str ∧ c.length = sl.length ∧
        ∀ (i : Nat) (x : UInt8), sl[i]? = some x → c[i]? = some (if x.toNat < 32 ∨ x.toNat = 127 then 95 else x) := by
  have hs := urlParse_slices (parseUri_urlParse h)
  have : Slice str c := by
    rcases hc with hc | hc | hc | hc | hc | hc | hc
    · exact hs.scheme c hc
    · exact hs.user c hc
    · exact hs.pass c hc
    · exact hs.host c hc
    · exact hs.path c hc
    · exact hs.query c hc
    · exact hs.fragment c hc
  obtain ⟨sl, hsl, rfl⟩ := this
  refine ⟨?_, sl, hsl, by simp [comp], ?_⟩
  · intro x hx
    simp only [comp, List.mem_map] at hx
    obtain ⟨y, _, rfl⟩ := hx
    split
    · decide
    · rename_i hn
      unfold isCntrl at hn
      simpa using hn
  · intro i x hx
    simp only [comp, List.getElem?_map, hx, Option.map_some]
    unfold isCntrl
    simp

/-- A tab in the user name, a DEL in the path. -/
example : (parseUri [] "http://m\te@a.b/x\x7fy".toUTF8.toList).map (fun u => (u.user, u.path)) =
    some (some "m_e".toUTF8.toList, some "/x_y".toUTF8.toList) := by decide +kernel

/-! ## C22: ports -/

/-- `T` begins with the number `n`, maybe after blanks and a plus sign. -/
def Begins (T : Bytes) (n : Nat) : Prop :=
  ∃ ws sg ds r, T = ws ++ sg ++ ds ++ r ∧ (∀ c ∈ ws, isSpace c = true) ∧ (sg = [] ∨ sg = [43]) ∧ ds ≠ [] ∧
    (∀ c ∈ ds, 48 ≤ c.toNat ∧ c.toNat ≤ 57) ∧ decValue ds = n

/-- The port is 0 or a number after a colon. -/
def PortOk (str : Bytes) (n : Nat) : Prop := n ≤ 65535 ∧ (n ≠ 0 → ∃ T, 58 :: T <:+: str ∧ T.length ≤ 5 ∧ Begins T n)

theorem strtol10_begins {l : Bytes} {v : Int} (h : strtol10 l = some v) (hv : 0 < v) : Begins l v.toNat := by
  unfold strtol10 at h
  simp only at h
  split at h
  · simp at h
  · rename_i hne
    simp only [Option.some.injEq] at h
    obtain ⟨l1, hl1⟩ : ∃ l1, l1 = l.dropWhile isSpace := ⟨_, rfl⟩
    have hl : l = l.takeWhile isSpace ++ l1 := by rw [hl1, List.takeWhile_append_dropWhile]
    rw [← hl1] at h hne
    have hws : ∀ c ∈ l.takeWhile isSpace, isSpace c = true := fun c hc => List.mem_takeWhile_imp hc
    have key : ∀ (t : Bytes), signed l1 = (false, t) → (∃ sg, l1 = sg ++ t ∧ (sg = [] ∨ sg = [43])) → Begins l v.toNat := by
      intro t ht hsg
      obtain ⟨sg, h1, h2⟩ := hsg
      rw [ht] at h hne
      simp only [Bool.false_eq_true, if_false] at h
      refine ⟨l.takeWhile isSpace, sg, t.takeWhile isDigit, t.dropWhile isDigit, ?_, hws, h2, hne,
        fun c hc => (isDigit_iff c).1 (List.mem_takeWhile_imp hc), by rw [← h]; rfl⟩
      rw [List.append_assoc, List.append_assoc, List.takeWhile_append_dropWhile, ← h1]
      exact hl
    cases hs : signed l1 with
    | mk neg t =>
      cases neg with
      | true =>
        rw [hs] at h
        simp only [if_true] at h
        omega
      | false =>
        refine key t hs ?_
        unfold signed at hs
        split at hs
        · simp at hs
        · simp only [Prod.mk.injEq, true_and] at hs; subst hs; exact ⟨[43], rfl, .inr rfl⟩
        · simp only [Prod.mk.injEq, true_and] at hs; subst hs; exact ⟨[], rfl, .inl rfl⟩

theorem takeFragment_port (u : Uri) (l : Bytes) : (takeFragment u l).1.port = u.port := by
  unfold takeFragment; split <;> try rfl
  simp only; split <;> rfl
theorem takeQuery_port (u : Uri) (l : Bytes) : (takeQuery u l).1.port = u.port := by
  unfold takeQuery; split <;> try rfl
  simp only; split <;> rfl
theorem justPath_port (u : Uri) (l : Bytes) : (justPath u l).port = u.port := by
  unfold justPath
  simp only
  split
  · simp only [takeQuery_port, takeFragment_port]
  · rw [takeQuery_port, takeFragment_port]
theorem login_port (u : Uri) (l : Bytes) : (login u l).1.port = u.port := by
  unfold login; split <;> try rfl
  simp only; split <;> rfl

theorem rfind_split {l : Bytes} {c : UInt8} {k : Nat} (h : rfind l c = some k) : l = l.take k ++ c :: l.drop (k + 1) := by
  unfold rfind at h
  simp only [Option.map_eq_some_iff] at h
  obtain ⟨j, hj, rfl⟩ := h
  obtain ⟨h1, h2, _⟩ := List.findIdx?_eq_some_iff_getElem.1 hj
  simp only [List.length_reverse] at h1
  rw [List.getElem_reverse] at h2
  have hc : l[l.length - 1 - j] = c := by simpa using h2
  rw [← hc, List.getElem_cons_drop, List.take_append_drop]

theorem hostPort_port_ok {str l : Bytes} {u v : Uri} (h : PortOk str u.port) (hl : l <:+: str) (hv : hostPort u l = some v) :
    PortOk str v.port := by
  unfold hostPort at hv
  simp only at hv
  split at hv
  · rename_i k hk
    have hk' : rfind l 58 = some k := by
      split at hk
      · simp at hk
      · exact hk
    split at hv
    · rename_i n hn
      split at hv
      · simp at hv
      · simp only [Option.some.injEq] at hv
        subst hv
        simp only
        split at hn
        · simp only [Option.some.injEq] at hn; subst hn; exact h
        · split at hn
          · simp at hn
          · rename_i hlen
            split at hn
            · rename_i w hw
              split at hn
              · rename_i hr
                simp only [Option.some.injEq] at hn
                subst hn
                refine ⟨by omega, fun h0 => ⟨l.drop (k + 1), ?_, by omega, strtol10_begins hw (by omega)⟩⟩
                refine List.IsInfix.trans ?_ hl
                have := rfind_split hk'
                exact ⟨l.take k, [], by rw [List.append_nil]; exact this.symm⟩
              · simp at hn
            · simp at hn
    · simp at hv
  · split at hv
    · simp at hv
    · simp only [Option.some.injEq] at hv; subst hv; exact h

theorem parseHost_port {str l : Bytes} {u v : Uri} (h : PortOk str u.port) (hl : l <:+: str) (hv : parseHost u l = some v) :
    PortOk str v.port := by
  unfold parseHost at hv
  simp only at hv
  have h1 : PortOk str (login u (l.take (cspn l [47, 63, 35]))).1.port := by rw [login_port]; exact h
  have l1 := (login_slices (AllSlices.init str) (take_infix hl (cspn l [47, 63, 35]))).2
  have l2 : (login u (l.take (cspn l [47, 63, 35]))).2 = (login {} (l.take (cspn l [47, 63, 35]))).2 := by
    unfold login; split <;> rfl
  rw [← l2] at l1
  split at hv
  · rename_i w hw
    have h2 := hostPort_port_ok h1 l1 hw
    split at hv
    · simp only [Option.some.injEq] at hv; subst hv; exact h2
    · simp only [Option.some.injEq] at hv; subst hv; rw [justPath_port]; exact h2
  · simp at hv

theorem find_split {l : Bytes} {c : UInt8} {k : Nat} (h : find l c = some k) : l = l.take k ++ c :: l.drop (k + 1) := by
  obtain ⟨h1, h2, _⟩ := List.findIdx?_eq_some_iff_getElem.1 h
  have hc : l[k] = c := by simpa using h2
  rw [← hc, List.getElem_cons_drop, List.take_append_drop]

theorem parsePort_port {str : Bytes} {u v : Uri} {e : Nat} (he : find str 58 = some e) (h : PortOk str u.port)
    (hv : parsePort u str e = some v) : PortOk str v.port := by
  have hs : (if twoSlashes str then str.drop 2 else str) <:+: str := by
    split
    · exact drop_infix (List.infix_refl _) _
    · exact List.infix_refl _
  unfold parsePort at hv
  simp only at hv
  split at hv
  · rename_i hd
    split at hv
    · rename_i hle
      refine parseHost_port (u := { u with port := _ }) ?_ hs hv
      refine ⟨hle, fun _ => ⟨((str.drop (e + 1)).take 6).takeWhile isDigit, ?_, by omega, [], [], _, [], by simp, by simp, .inl rfl, ?_,
        fun c hc => (isDigit_iff c).1 (List.mem_takeWhile_imp hc), rfl⟩⟩
      · have hp : ((str.drop (e + 1)).take 6).takeWhile isDigit <+: str.drop (e + 1) :=
          (List.takeWhile_prefix _).trans (List.take_prefix ..)
        obtain ⟨r, hr⟩ := hp
        refine ⟨str.take e, r, ?_⟩
        rw [List.append_assoc, List.cons_append, hr]
        exact (find_split he).symm
      · intro h0; rw [h0] at hd; simp at hd
    · simp at hv
  · split at hv
    · simp at hv
    · split at hv
      · rename_i ht
        rw [if_pos ht] at hs
        exact parseHost_port h hs hv
      · simp only [Option.some.injEq] at hv; subst hv; rw [justPath_port]; exact h

theorem urlParse_port {str : Bytes} {u : Uri} (hu : urlParse str = some u) : PortOk str u.port := by
  have hr : str <:+: str := List.infix_refl _
  have h0 : PortOk str 0 := ⟨by omega, fun h => absurd rfl h⟩
  unfold urlParse at hu
  split at hu
  · rename_i he
    exact parsePort_port (u := {}) he h0 hu
  · rename_i e _ he
    simp only at hu
    split at hu
    · split at hu
      · exact parsePort_port (u := {}) he h0 hu
      · split at hu
        · exact parseHost_port (u := {}) h0 (drop_infix hr _) hu
        · simp only [Option.some.injEq] at hu; subst hu; rw [justPath_port]; exact h0
    · split at hu
      · simp only [Option.some.injEq] at hu; subst hu; exact h0
      · split at hu
        · split at hu
          · exact parsePort_port (u := {}) he h0 hu
          · simp only [Option.some.injEq] at hu; subst hu; rw [justPath_port]; exact h0
        · split at hu
          · split at hu
            · simp only [Option.some.injEq] at hu; subst hu; rw [justPath_port]; exact h0
            · exact parseHost_port (u := { scheme := _ }) h0 (drop_infix (drop_infix hr _) _) hu
          · simp only [Option.some.injEq] at hu; subst hu; rw [justPath_port]; exact h0
  · split at hu
    · exact parseHost_port (u := {}) h0 (drop_infix hr _) hu
    · simp only [Option.some.injEq] at hu; subst hu; rw [justPath_port]; exact h0

/-- Claim C22 as far as it holds, for all texts: the port is at most 65535, and if it is not 0 then at most five bytes after some colon of
the text begin with that number. -/
theorem port_in_range_partial (hostname str : Bytes) (u : Uri) (h : parseUri hostname str = some u) :
    u.port ≤ 65535 ∧ (u.port ≠ 0 → ∃ T, 58 :: T <:+: str ∧ T.length ≤ 5 ∧ Begins T u.port) :=
  urlParse_port (parseUri_urlParse h)

/-- Against C22: what is written after the colon need not be that number. -/
theorem port_with_junk_accepted :
    (parseUri [] "http://a.b:8x/".toUTF8.toList).map (·.port) = some 8 ∧
    (parseUri [] "http://a.b:+80/".toUTF8.toList).map (·.port) = some 80 ∧
    (parseUri [] "http://a.b: 443".toUTF8.toList).map (·.port) = some 443 ∧
    (parseUri [] "http://a.b:-0".toUTF8.toList).map (·.port) = some 0 := by decide +kernel

/-- Ports above 65535 are refused. -/
example : parseUri [] "http://a.b:65536/".toUTF8.toList = none ∧ parseUri [] "http://a.b:99999/".toUTF8.toList = none ∧
    (parseUri [] "http://a.b:65535/".toUTF8.toList).map (·.port) = some 65535 := by decide +kernel

end Verif.Uri
