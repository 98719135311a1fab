import Mathlib.Tactic
import Verif.Sock.Open

/-!
# Timeouts of sockets, looked-up addresses, the address of a client, and aligned memory, C113 to C116
-/

namespace Verif.Sock

/-- `struct timeval`. -/
structure Timeval where
  sec : Int
  usec : Int
  deriving DecidableEq, Repr

/-- The conversion in `events_tcp_timeout(fd, milliseconds)`, src/events.c:391-406: `int` arithmetic, an overflow is undefined.  Division and remainder of C. -/
def tcpTimeval (ms : Int) : Res Timeval :=
  if -2 ^ 31 ≤ ms * 1000 ∧ ms * 1000 < 2 ^ 31 then .ok ⟨ms.tdiv 1000, (ms * 1000).tmod 1000000⟩ else .ub

/-- The kernel takes a timeout with 0 to 999999 microseconds (`EDOM` otherwise), for a negative number of seconds as if it were 0. -/
def setTimeout (t : Timeval) : Option Int :=
  if 0 ≤ t.usec ∧ t.usec < 1000000 then some (if t.sec < 0 then 0 else t.sec * 1000000 + t.usec) else none

/-- `events_tcp_timeout`: what it returns, and the timeout that the socket has then (in microseconds, `none`: unchanged). -/
def tcpTimeout (ms : Int) : Res (Bool × Option Int) := do
  let t ← tcpTimeval ms
  .ok ((setTimeout t).isNone, setTimeout t)

/-- Claim C113: for up to 2147483 milliseconds (35 minutes) the socket gets exactly that timeout, and 0 is returned. -/
theorem tcp_timeout_exact_partial (ms : Int) (h0 : 0 ≤ ms) (h : ms ≤ 2147483) : tcpTimeout ms = .ok (false, some (ms * 1000)) := by
  have ht : tcpTimeval ms = .ok ⟨ms / 1000, (ms * 1000) % 1000000⟩ := by
    unfold tcpTimeval
    rw [if_pos (by omega), Int.tdiv_eq_ediv_of_nonneg h0, Int.tmod_eq_emod_of_nonneg (by omega)]
  have hs : setTimeout ⟨ms / 1000, (ms * 1000) % 1000000⟩ = some (ms * 1000) := by
    unfold setTimeout
    dsimp only
    rw [if_pos (by omega), if_neg (by omega)]
    congr 1; omega
  simp only [tcpTimeout, ht, Res.ok_bind, hs]; rfl

/-- Claim C113 (failure): every longer timeout is undefined (an `int` overflows). -/
theorem tcp_timeout_long_ub (ms : Int) (h : 2147483 < ms) : tcpTimeout ms = .ub := by
  unfold tcpTimeout tcpTimeval
  rw [if_neg (by omega)]; rfl

/-- Claim C113: a negative number is refused, unless it is a whole number of seconds, which turns the timeout off. -/
theorem tcp_timeout_negative (ms : Int) (h0 : ms < 0) (h : -2147483 ≤ ms) :
    tcpTimeout ms = .ok (if ms % 1000 = 0 then (false, some 0) else (true, none)) := by
  have hr : (ms * 1000).tmod 1000000 = -((-ms * 1000) % 1000000) := by
    have : ms * 1000 = -((-ms) * 1000) := by ring
    rw [this, Int.neg_tmod, Int.tmod_eq_emod_of_nonneg (by omega)]
  have hd : ms.tdiv 1000 = -((-ms) / 1000) := by
    have : ms = -(-ms) := by ring
    rw [this, Int.neg_tdiv, Int.tdiv_eq_ediv_of_nonneg (by omega)]
    congr 2; omega
  have ht : tcpTimeval ms = .ok ⟨-((-ms) / 1000), -((-ms * 1000) % 1000000)⟩ := by
    unfold tcpTimeval
    rw [if_pos (by omega), hr, hd]
  simp only [tcpTimeout, ht, Res.ok_bind, setTimeout]
  by_cases hz : ms % 1000 = 0
  · rw [if_pos hz, if_pos (by omega), if_pos (by omega)]; rfl
  · rw [if_neg hz, if_neg (by omega)]; rfl

example : tcpTimeout 1500 = .ok (false, some 1500000) := by decide +kernel
/-- One hour. -/
example : tcpTimeout 3600000 = .ub := by decide +kernel

/-! ## `async_inet_pton` -/

/-- One round of the loop over the addresses found, src/async_io.c:364-371; `dst` is the memory for the result. -/
def ptonStep (af : Fam) (dstlen : Nat) (r : Bool × Bytes) (a : Addr) : Bool × Bytes :=
  if a.data.length ≤ dstlen ∧ a.fam = af then (true, a.data ++ r.2.drop a.data.length) else r

/-- `async_inet_pton(af, src, dst, dstlen, resolve)`, src/async_io.c:338-376; `found` is what `getaddrinfo` gives (`none`: an error): whether it returns 1, and the
memory at `dst` (of `dstlen` bytes). -/
def inetPton (found : Option (List Addr)) (af : Fam) (dst : Bytes) (dstlen : Nat) : Bool × Bytes :=
  match found with
  | none => (false, dst)
  | some l => l.foldl (ptonStep af dstlen) (false, dst)

theorem pton_foldl (af : Fam) (n : Nat) : ∀ (l : List Addr) (r : Bool × Bytes), r.2.length = n →
    (l.foldl (ptonStep af n) r).2.length = n ∧
    match (l.filter fun a => decide (a.data.length ≤ n ∧ a.fam = af)).getLast? with
    | some a => (l.foldl (ptonStep af n) r).1 = true ∧ (l.foldl (ptonStep af n) r).2.take a.data.length = a.data
    | none => l.foldl (ptonStep af n) r = r
  | [], r, h => ⟨h, rfl⟩
  | a :: l, r, h => by
    rw [List.foldl_cons]
    by_cases hc : a.data.length ≤ n ∧ a.fam = af
    · have hl : (ptonStep af n r a).2.length = n := by
        simp only [ptonStep, if_pos hc, List.length_append, List.length_drop]; omega
      have ih := pton_foldl af n l _ hl
      refine ⟨ih.1, ?_⟩
      rw [List.filter_cons_of_pos (by simpa using hc), List.getLast?_cons]
      cases hg : (l.filter fun a => decide (a.data.length ≤ n ∧ a.fam = af)).getLast? with
      | some b => rw [hg] at ih; simpa using ih.2
      | none =>
        rw [hg] at ih
        simp only [Option.getD_none]
        rw [ih.2]
        simp [ptonStep, hc]
    · have e : ptonStep af n r a = r := if_neg hc
      rw [e]
      have ih := pton_foldl af n l r h
      rw [List.filter_cons_of_neg (by simpa using hc)]
      exact ih

/-- Claim C114: `async_inet_pton` never writes beyond the `dstlen` bytes; it returns 1 exactly if an address of the family that fits was found, and then the
last one of those is stored; otherwise the memory is left alone. -/
theorem inet_pton_last (found : Option (List Addr)) (af : Fam) (dst : Bytes) :
    (inetPton found af dst dst.length).2.length = dst.length ∧
    match ((found.getD []).filter fun a => decide (a.data.length ≤ dst.length ∧ a.fam = af)).getLast? with
    | some a => (inetPton found af dst dst.length).1 = true ∧ (inetPton found af dst dst.length).2.take a.data.length = a.data
    | none => inetPton found af dst dst.length = (false, dst) := by
  cases found with
  | none => exact ⟨rfl, rfl⟩
  | some l => exact pton_foldl af dst.length l (false, dst) rfl

/-- Two IPv4 addresses around an IPv6 address: the last one of the family is taken. -/
example : inetPton (some [⟨.inet, [1, 2]⟩, ⟨.inet6, [3]⟩, ⟨.inet, [4, 5]⟩, ⟨.inet6, [9]⟩]) .inet [0, 0, 0] 3 = (true, [4, 5, 0]) := by decide

/-! ## The text of a client's address -/

/-- `getnameinfo(…, NI_NUMERICHOST)` into `len` bytes of the buffer: the text and its terminator if they fit, otherwise nothing is written. -/
def nameinfo (text : Bytes) (len : Nat) (buf : Bytes) : Bytes :=
  if text.length + 1 ≤ len then text ++ 0 :: buf.drop (text.length + 1) else buf

/-- `async_sockaddr_str(dst, len, usa)`, src/async_io.c:10-32, for an address whose text is `text`; `dst` is not empty.  Writing beyond the caller's buffer is
undefined. -/
def sockaddrStr (buf : Bytes) (len : Nat) (text : Bytes) : Res Bytes :=
  match buf with
  | [] => .ub
  | _ :: b => if text.length + 1 ≤ len ∧ b.length + 1 < text.length + 1 then .ub else .ok (nameinfo text len (0 :: b))

/-- The decimal text of a byte. -/
def dec (n : Nat) : Bytes :=
  if n < 10 then [UInt8.ofNat (48 + n)]
  else if n < 100 then [UInt8.ofNat (48 + n / 10), UInt8.ofNat (48 + n % 10)]
  else [UInt8.ofNat (48 + n / 100), UInt8.ofNat (48 + n / 10 % 10), UInt8.ofNat (48 + n % 10)]

/-- The text of an IPv4 address. -/
def dotted (a b c d : Nat) : Bytes := dec a ++ 46 :: (dec b ++ 46 :: (dec c ++ 46 :: dec d))

/-- What `async_accept(fd, server, port)` does with `server` and `port`, src/async_io.c:191-199, for the address text of the client and the port as the kernel
stored it (most significant byte first: `hi`, `lo`).  The size passed for a UNIX socket is 108. -/
def acceptInfo (unix : Bool) (server : Option Bytes) (text : Bytes) (hi lo : UInt8) : Res (Option Bytes × Option Nat) :=
  match server with
  | none => .ok (none, if unix then none else some (hi.toNat * 256 + lo.toNat))
  | some buf => do
    let b ← sockaddrStr buf (if unix then 108 else 16) text
    .ok (some b, if unix then none else some (hi.toNat * 256 + lo.toNat))

theorem dec_length (n : Nat) : (dec n).length ≤ 3 := by
  unfold dec
  split
  · simp
  · split <;> simp

theorem dec_nulfree (n : Nat) (hn : n < 256) : (0 : UInt8) ∉ dec n := by
  revert n; decide +kernel

theorem cstr_nameinfo {text r : Bytes} (h : (0 : UInt8) ∉ text) : (text ++ 0 :: r).takeWhile (· ≠ 0) = text := by
  rw [List.takeWhile_append_of_pos (by intro x hx; simp; rintro rfl; exact h hx)]
  simp

/-- Claim C115, for IPv4 clients: with the documented buffer of 16 bytes, the caller finds the dotted address of the client, and its port. -/
theorem accept_v4_partial (a b c d : Nat) (ha : a < 256) (hb : b < 256) (hc : c < 256) (hd : d < 256) (buf : Bytes) (hbuf : 16 ≤ buf.length) (hi lo : UInt8) :
    ∃ out, acceptInfo false (some buf) (dotted a b c d) hi lo = .ok (some out, some (hi.toNat * 256 + lo.toNat)) ∧
      out.takeWhile (· ≠ 0) = dotted a b c d ∧ out.length = buf.length := by
  have hl : (dotted a b c d).length ≤ 15 := by
    have := dec_length a; have := dec_length b; have := dec_length c; have := dec_length d
    simp only [dotted, List.length_append, List.length_cons]; omega
  have hz : (0 : UInt8) ∉ dotted a b c d := by
    simp only [dotted, List.mem_append, List.mem_cons, not_or]
    exact ⟨dec_nulfree a ha, by decide, dec_nulfree b hb, by decide, dec_nulfree c hc, by decide, dec_nulfree d hd⟩
  obtain ⟨t, ht⟩ : ∃ t, t = dotted a b c d := ⟨_, rfl⟩
  rw [← ht] at hl hz ⊢
  cases buf with
  | nil => simp at hbuf
  | cons x l =>
    simp only [List.length_cons] at hbuf
    refine ⟨t ++ 0 :: (0 :: l).drop (t.length + 1), ?_, cstr_nameinfo hz, ?_⟩
    · simp only [acceptInfo, sockaddrStr]
      rw [if_neg (by omega)]
      simp only [Bool.false_eq_true, if_false, nameinfo, Res.ok_bind]
      rw [if_pos (by omega)]
    · simp only [List.length_append, List.length_cons, List.length_drop]; omega

/-- Claim C115 (failure): the caller gets the empty text for every IPv6 client whose address has a text of more than 15 characters. -/
theorem accept_v6_empty (text : Bytes) (ht : 15 < text.length) (buf : Bytes) (hbuf : buf ≠ []) (hi lo : UInt8) :
    ∃ out, acceptInfo false (some buf) text hi lo = .ok (some out, some (hi.toNat * 256 + lo.toNat)) ∧ out.takeWhile (· ≠ 0) = [] := by
  cases buf with
  | nil => exact absurd rfl hbuf
  | cons x l =>
    refine ⟨0 :: l, ?_, by simp⟩
    simp only [acceptInfo, sockaddrStr]
    rw [if_neg (by simp; omega)]
    simp only [Bool.false_eq_true, if_false, nameinfo, Res.ok_bind]
    rw [if_neg (by omega)]

/-- `203.0.113.255`, port 8080; `2001:db8::8a2e:370:7334` has 23 characters. -/
example : acceptInfo false (some (List.replicate 16 7)) (dotted 203 0 113 255) 0x1f 0x90 =
    .ok (some ("203.0.113.255".toUTF8.toList ++ [0, 7, 7]), some 8080) := by decide +kernel
example : 15 < "2001:db8::8a2e:370:7334".toUTF8.toList.length := by decide +kernel

/-! ## `events_memalign` -/

/-- `events_memalign(sz, &orig, clear)`, src/events.c:725-734: the size asked for (`size_t`) and the address returned, for the block at `orig` and `rnd` from
`rand()`.  `line` is the size of a cache line. -/
def memalignSize (line sz : Nat) : Nat := (sz + 4096 + line) % 2 ^ 64
def memalign (line orig rnd : Nat) : Nat := (orig + rnd % 4096 + line - 1) / line * line

/-- Claim C116: whatever `rand()` gives, the `sz` bytes at the address that `events_memalign` returns begin on a cache line and lie within the block that was
allocated. -/
theorem memalign_inside (line orig sz rnd : Nat) (hl : 0 < line) (hs : sz + 4096 + line < 2 ^ 64) :
    memalign line orig rnd % line = 0 ∧ orig ≤ memalign line orig rnd ∧
      memalign line orig rnd + sz ≤ orig + memalignSize line sz := by
  have h1 : memalign line orig rnd % line = 0 := Nat.mul_mod_left _ _
  have hr : rnd % 4096 < 4096 := Nat.mod_lt _ (by decide)
  have hd := Nat.div_add_mod (orig + rnd % 4096 + line - 1) line
  have hm : (orig + rnd % 4096 + line - 1) % line < line := Nat.mod_lt _ hl
  have he : memalign line orig rnd = line * ((orig + rnd % 4096 + line - 1) / line) := Nat.mul_comm _ _
  refine ⟨h1, ?_, ?_⟩
  · rw [he]; omega
  · rw [memalignSize, Nat.mod_eq_of_lt hs, he]; omega

example : memalign 64 1000 5000 = 1920 ∧ memalignSize 64 100 = 4260 := by decide

end Verif.Sock
