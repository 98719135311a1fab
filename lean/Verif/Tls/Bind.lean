import Verif.Basic
import Verif.Mem

/-!
# Servers and clients with TLS: the name they use, and what stays open after a failure, C221 and C222

`tls_bind` (src/async_tls.c:936-967), `tls_dial` (src/async_tls.c:1044-1073), `tls_socket_set` (src/async_tls.c:914-934).
-/

namespace Verif.Tls.Bind

open Verif

/-- `"localhost,127.0.0.1,0.0.0.0"`. -/
def localList : Bytes :=
  [108, 111, 99, 97, 108, 104, 111, 115, 116, 44, 49, 50, 55, 46, 48, 46, 48, 46, 49, 44, 48, 46, 48, 46, 48, 46, 48]

/-- The test of lines 921, 940 and 1059: `str_has` (src/arrays.c:977-979) finds the host somewhere in the list. -/
def isLocal (host : Bytes) : Bool := (searchFrom localList host 0).isSome

/-- The name a server binds to (line 941), and which a client wants to see in the certificate (line 1059). -/
def nameOf (own host : Bytes) : Bytes := if isLocal host then own else host

/-- What the calls of the C library, OpenSSL and the system give.  `cfg`: `tls_config_new` gives a configuration; `pair`: the certificate
and the key (for a client: the certificates of the authorities) can be read; `ctx`: `tls_server` gives a context; `conf`: `tls_configure`
succeeds, for a client: the handshake does; if not, `async_tls_connect` has closed the socket (src/async_tls.c:1030-1039).  Not modelled
here: the message about the failed handshake, for which see `Verif.Tls.tls_dial_failure_ub`. -/
structure Env where
  host : Option Bytes
  sock : Option Nat
  cfg : Bool
  pair : Bool
  ctx : Bool
  conf : Bool

/-- What a call gives: the descriptor, if it succeeds; the descriptor it has opened, if it is open on return; and whether it will be closed
at the end of the task. -/
structure Out where
  ret : Option Nat
  opened : Option Nat
  deferred : Bool
  deriving DecidableEq, Repr

/-- `tls_bind`, src/async_tls.c:936-967.  `defer` takes the NULL of a failed `tls_config_new` as well (src/events.c:1926-1949), and
`tls_config_set_keypair_file` is called with it. -/
def tlsBind (e : Env) : Res Out :=
  match e.host, e.sock with
  | some _, some s =>
    if e.cfg then
      if e.pair then
        if e.ctx then
          if e.conf then .ok ⟨some s, some s, true⟩ else .ok ⟨none, some s, true⟩
        else .ok ⟨none, some s, false⟩
      else .ok ⟨none, some s, false⟩
    else .ub
  | _, _ => .ok ⟨none, none, false⟩

/-- `tls_dial`, src/async_tls.c:1044-1073. -/
def tlsDial (e : Env) : Res Out :=
  match e.host, e.sock with
  | some _, some s =>
    if e.cfg then
      if e.pair then
        if e.conf then .ok ⟨some s, some s, false⟩ else .ok ⟨none, none, false⟩
      else .ok ⟨none, some s, false⟩
    else .ub
  | _, _ => .ok ⟨none, none, false⟩

/-- The descriptor which is still open when the task has ended. -/
def Out.left (o : Out) : Option Nat := if o.deferred then none else o.opened

/-! ## The name -/

theorem isLocal_iff (host : Bytes) : isLocal host = true ↔ host <:+: localList := by
  unfold isLocal
  constructor
  · intro h
    obtain ⟨i, hi⟩ := Option.isSome_iff_exists.1 h
    obtain ⟨t, ht⟩ := (searchFrom_some hi).2.2.1
    exact ⟨localList.take i, t, by rw [List.append_assoc, ht, List.take_append_drop]⟩
  · rintro ⟨a, b, h⟩
    cases hs : searchFrom localList host 0 with
    | some i => rfl
    | none =>
      refine absurd ?_ (searchFrom_none hs a.length (Nat.zero_le _) (by rw [← h]; simp))
      rw [← h, List.append_assoc, List.drop_left]
      exact List.prefix_append ..

/-- **C221, the part that holds.**  A host which is not part of the list is left alone. -/
theorem name_kept_partial (own host : Bytes) (h : ¬ host <:+: localList) : nameOf own host = host := by
  unfold nameOf
  rw [if_neg]
  rwa [isLocal_iff]

/-- **C221 is false of the code**: every piece of the list is taken for the machine itself. -/
theorem name_replaced (own host : Bytes) (h : host <:+: localList) : nameOf own host = own := by
  unfold nameOf
  rw [if_pos ((isLocal_iff host).2 h)]

/-- A number below 256 in decimal. -/
def dec (n : Nat) : Bytes :=
  if n < 10 then [UInt8.ofNat (48 + n)]
  else if n < 100 then [UInt8.ofNat (48 + n / 10), UInt8.ofNat (48 + n % 10)]
  else [UInt8.ofNat (48 + n / 100), UInt8.ofNat (48 + n / 10 % 10), UInt8.ofNat (48 + n % 10)]

/-- An IPv4 address as text. -/
def ipv4 (a b c d : Nat) : Bytes := dec a ++ 46 :: (dec b ++ 46 :: (dec c ++ 46 :: dec d))

/-- The pieces of a text between its dots. -/
def pieces : Bytes → List Bytes
  | [] => [[]]
  | x :: l => if x = 46 then [] :: pieces l else match pieces l with
    | [] => [[x]]
    | p :: ps => (x :: p) :: ps

theorem pieces_ne : ∀ l, pieces l ≠ []
  | [] => by simp [pieces]
  | x :: l => by
    unfold pieces
    split
    · simp
    · split <;> simp

theorem pieces_plain : ∀ {l : Bytes}, (46 : UInt8) ∉ l → pieces l = [l]
  | [], _ => rfl
  | x :: l, h => by
    have hx : x ≠ 46 := fun e => h (by simp [e])
    unfold pieces
    rw [if_neg hx, pieces_plain (fun hm => h (List.mem_cons_of_mem _ hm))]

theorem pieces_dot : ∀ {l : Bytes} (r : Bytes), (46 : UInt8) ∉ l → pieces (l ++ 46 :: r) = l :: pieces r
  | [], r, _ => by simp [pieces]
  | x :: l, r, h => by
    have hx : x ≠ 46 := fun e => h (by simp [e])
    rw [List.cons_append]
    show (if x = 46 then [] :: pieces (l ++ 46 :: r) else match pieces (l ++ 46 :: r) with
      | [] => [[x]]
      | p :: ps => (x :: p) :: ps) = _
    rw [if_neg hx, pieces_dot r (fun hm => h (List.mem_cons_of_mem _ hm))]

theorem dec_nodot (n : Nat) (h : n < 256) : (46 : UInt8) ∉ dec n := by
  have : ∀ n : Fin 256, (46 : UInt8) ∉ dec n.val := by decide +kernel
  exact this ⟨n, h⟩

theorem dec_digits (n : Nat) (h : n < 256) : dec n ≠ [] ∧ ∀ x ∈ dec n, 48 ≤ x ∧ x ≤ 57 := by
  have : ∀ n : Fin 256, dec n.val ≠ [] ∧ ∀ x ∈ dec n.val, 48 ≤ x ∧ x ≤ 57 := by decide +kernel
  exact this ⟨n, h⟩

theorem dec_inj (m n : Nat) (hm : m < 256) (hn : n < 256) (h : dec m = dec n) : m = n := by
  have : ∀ n : Fin 256, (match dec n.val with
      | [a] => a.toNat - 48
      | [a, b] => (a.toNat - 48) * 10 + (b.toNat - 48)
      | [a, b, c] => (a.toNat - 48) * 100 + (b.toNat - 48) * 10 + (c.toNat - 48)
      | _ => 0) = n.val := by decide +kernel
  have h1 := this ⟨m, hm⟩
  have h2 := this ⟨n, hn⟩
  dsimp only at h1 h2
  rw [h] at h1
  omega

theorem pieces_ipv4 (a b c d : Nat) (ha : a < 256) (hb : b < 256) (hc : c < 256) (hd : d < 256) :
    pieces (ipv4 a b c d) = [dec a, dec b, dec c, dec d] := by
  unfold ipv4
  rw [pieces_dot _ (dec_nodot a ha), pieces_dot _ (dec_nodot b hb), pieces_dot _ (dec_nodot c hc), pieces_plain (dec_nodot d hd)]

theorem ipv4_inj {a b c d a' b' c' d' : Nat} (ha : a < 256) (hb : b < 256) (hc : c < 256) (hd : d < 256) (ha' : a' < 256) (hb' : b' < 256)
    (hc' : c' < 256) (hd' : d' < 256) (h : ipv4 a b c d = ipv4 a' b' c' d') : a = a' ∧ b = b' ∧ c = c' ∧ d = d' := by
  have := congrArg pieces h
  rw [pieces_ipv4 a b c d ha hb hc hd, pieces_ipv4 a' b' c' d' ha' hb' hc' hd'] at this
  simp only [List.cons.injEq, and_true] at this
  exact ⟨dec_inj _ _ ha ha' this.1, dec_inj _ _ hb hb' this.2.1, dec_inj _ _ hc hc' this.2.2.1, dec_inj _ _ hd hd' this.2.2.2⟩

theorem cuts : ∀ i : Fin 28, ∀ n : Fin 28, (match pieces ((localList.drop i.val).take n.val) with
    | [p, q, r, s] => (decide (p ≠ []) && decide (q ≠ []) && decide (r ≠ []) && decide (s ≠ []) &&
        (p ++ q ++ r ++ s).all fun x => decide (48 ≤ x ∧ x ≤ 57)) = true →
      (localList.drop i.val).take n.val ∈ [ipv4 127 0 0 1, ipv4 0 0 0 0, ipv4 27 0 0 1, ipv4 7 0 0 1]
    | _ => True) := by
  intro i n
  have : ∀ i : Fin 28, ∀ n : Fin 28, (match pieces ((localList.drop i.val).take n.val) with
    | [p, q, r, s] => !(decide (p ≠ []) && decide (q ≠ []) && decide (r ≠ []) && decide (s ≠ []) &&
        (p ++ q ++ r ++ s).all fun x => decide (48 ≤ x ∧ x ≤ 57)) ||
      decide ((localList.drop i.val).take n.val ∈ [ipv4 127 0 0 1, ipv4 0 0 0 0, ipv4 27 0 0 1, ipv4 7 0 0 1])
    | _ => true) = true := by decide +kernel
  have := this i n
  split <;> rename_i h
  · rw [h] at this
    intro hx
    dsimp only at this
    rw [hx] at this
    simpa using this
  · trivial

/-- **C221 is false of the code, for addresses**: of all IPv4 addresses exactly four are taken for the machine itself: the two meant, and
27.0.0.1 and 7.0.0.1, which belong to others. -/
theorem address_replaced_iff (a b c d : Nat) (ha : a < 256) (hb : b < 256) (hc : c < 256) (hd : d < 256) :
    isLocal (ipv4 a b c d) = true ↔ (a, b, c, d) ∈ [(127, 0, 0, 1), (0, 0, 0, 0), (27, 0, 0, 1), (7, 0, 0, 1)] := by
  constructor
  · intro h
    obtain ⟨s, t, hst⟩ := (isLocal_iff _).1 h
    have hl := congrArg List.length hst
    have hll : localList.length = 27 := rfl
    simp only [List.length_append] at hl
    have hcut : (localList.drop s.length).take (ipv4 a b c d).length = ipv4 a b c d := by
      rw [← hst, List.append_assoc, List.drop_left, List.take_left]
    have := cuts ⟨s.length, by omega⟩ ⟨(ipv4 a b c d).length, by omega⟩
    dsimp only at this
    rw [hcut, pieces_ipv4 a b c d ha hb hc hd] at this
    dsimp only at this
    have hm := this (by
      obtain ⟨a1, a2⟩ := dec_digits a ha
      obtain ⟨b1, b2⟩ := dec_digits b hb
      obtain ⟨c1, c2⟩ := dec_digits c hc
      obtain ⟨d1, d2⟩ := dec_digits d hd
      simp only [a1, b1, c1, d1, ne_eq, not_false_eq_true, decide_true, Bool.true_and, List.all_eq_true, List.mem_append, decide_eq_true_eq]
      rintro x (((hx | hx) | hx) | hx)
      · exact a2 x hx
      · exact b2 x hx
      · exact c2 x hx
      · exact d2 x hx)
    simp only [List.mem_cons, List.not_mem_nil, or_false] at hm ⊢
    rcases hm with hm | hm | hm | hm <;>
      obtain ⟨rfl, rfl, rfl, rfl⟩ := ipv4_inj ha hb hc hd (by decide) (by decide) (by decide) (by decide) hm <;> simp
  · intro h
    simp only [List.mem_cons, List.not_mem_nil, or_false, Prod.mk.injEq] at h
    rcases h with ⟨rfl, rfl, rfl, rfl⟩ | ⟨rfl, rfl, rfl, rfl⟩ | ⟨rfl, rfl, rfl, rfl⟩ | ⟨rfl, rfl, rfl, rfl⟩ <;> decide +kernel

/-- The host `host` (one word, as names in a local network are) is taken for the machine itself; `example.org` is not. -/
example : nameOf [109, 101] [104, 111, 115, 116] = [109, 101] ∧
    nameOf [109, 101] [101, 120, 97, 109, 112, 108, 101, 46, 111, 114, 103] = [101, 120, 97, 109, 112, 108, 101, 46, 111, 114, 103] := by
  decide +kernel

/-! ## What stays open -/

/-- **C222, the part that holds.**  If `tls_bind` succeeds the server is open, with its certificate, its key and its configuration, and is
closed at the end of the task; if it fails in the last step it is closed at the end of the task. -/
theorem bind_ok_partial (e : Env) (o : Out) (h : tlsBind e = .ok o) :
    (∀ s, o.ret = some s → e.sock = some s ∧ e.pair = true ∧ e.ctx = true ∧ e.conf = true ∧ o.opened = some s ∧ o.left = none) ∧
    (e.pair = true → e.ctx = true → o.left = none) := by
  unfold tlsBind at h
  split at h
  · repeat' split at h
    all_goals cases h
    all_goals simp_all [Out.left]
  · cases h
    simp [Out.left]

/-- **C222 is false of the code for servers**: if the certificate or the key cannot be read, or no context is to be had, the call fails, and
the socket it has opened listens on for good. -/
theorem bind_leaves_open (e : Env) (s : Nat) (hs : e.sock = some s) (hh : e.host ≠ none) (hc : e.cfg = true)
    (hf : e.pair = false ∨ e.ctx = false) : ∃ o, tlsBind e = .ok o ∧ o.ret = none ∧ o.left = some s := by
  obtain ⟨x, hx⟩ := Option.ne_none_iff_exists'.1 hh
  refine ⟨⟨none, some s, false⟩, ?_, rfl, rfl⟩
  unfold tlsBind
  rw [hx, hs]
  dsimp only
  rw [if_pos hc]
  by_cases hp : e.pair = true
  · rw [if_pos hp, if_neg]
    rcases hf with hf | hf
    · rw [hf] at hp; cases hp
    · simp [hf]
  · rw [if_neg hp]

/-- **C222 is false of the code for clients**: if the certificates of the authorities cannot be read, the connection stays open for good. -/
theorem dial_leaves_open (e : Env) (s : Nat) (hs : e.sock = some s) (hh : e.host ≠ none) (hc : e.cfg = true) (hf : e.pair = false) :
    ∃ o, tlsDial e = .ok o ∧ o.ret = none ∧ o.left = some s := by
  obtain ⟨x, hx⟩ := Option.ne_none_iff_exists'.1 hh
  refine ⟨⟨none, some s, false⟩, ?_, rfl, rfl⟩
  unfold tlsDial
  rw [hx, hs]
  dsimp only
  rw [if_pos hc, if_neg (by simp [hf])]

/-- **C222, the part that holds for clients.**  A connection that is returned stays open when the task ends; in every other case a failed call leaves nothing
open. -/
theorem dial_ok_partial (e : Env) (o : Out) (h : tlsDial e = .ok o) :
    (∀ s, o.ret = some s → e.sock = some s ∧ e.pair = true ∧ e.conf = true ∧ o.opened = some s ∧ o.left = some s) ∧
    (o.ret = none → e.pair = true → o.left = none) := by
  unfold tlsDial at h
  split at h
  · repeat' split at h
    all_goals cases h
    all_goals simp_all [Out.left]
  · cases h
    simp [Out.left]

/-- **C222: without memory for the configuration both use the NULL pointer.** -/
theorem no_configuration_ub (e : Env) (hs : e.sock ≠ none) (hh : e.host ≠ none) (hc : e.cfg = false) : tlsBind e = .ub ∧ tlsDial e = .ub := by
  obtain ⟨x, hx⟩ := Option.ne_none_iff_exists'.1 hh
  obtain ⟨s, hs⟩ := Option.ne_none_iff_exists'.1 hs
  unfold tlsBind tlsDial
  rw [hx, hs]
  simp [hc]

example : tlsBind ⟨some [49], some 7, true, true, true, true⟩ = .ok ⟨some 7, some 7, true⟩ ∧
    tlsBind ⟨some [49], some 7, true, false, true, true⟩ = .ok ⟨none, some 7, false⟩ ∧
    tlsDial ⟨some [49], some 7, true, true, true, false⟩ = .ok ⟨none, none, false⟩ := ⟨rfl, rfl, rfl⟩

end Verif.Tls.Bind
