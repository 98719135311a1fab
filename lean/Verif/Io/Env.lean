import Verif.Mem
import Mathlib.Tactic.Linarith

/-!
# Building an environment block (`src/async_io.c` 813-833), C55
-/

namespace Verif.Io.Env

/-- The text of one variable: `k=v;`. -/
def pair (k v : Bytes) : Bytes := k ++ [61] ++ v ++ [59]

/-- `snprintf(buf, sizeof(buf), …)` into the buffer of 2048 bytes: at most 2047 bytes and a NUL; the rest of the buffer keeps
what was there.  The result is the full length. -/
def snprintf2k (buf text : Bytes) : Bytes × Nat :=
  (text.take 2047 ++ [0] ++ buf.drop (min text.length 2047 + 1), text.length)

/-- One round of `exec_addenv`, src/async_io.c:822-828: `data` is the block, `size` the length stored in `*size`.  `realloc` keeps the
old bytes; the new ones are `junk`.  Simplified: memory is not short, lengths do not overflow an `int`. -/
def addOne (junk : Nat → UInt8) (k v : Bytes) (st : Bytes × Nat × Bytes) : Res (Bytes × Nat × Bytes) := do
  let (data, size, buf) := st
  let (buf, len) := snprintf2k buf (pair k v)
  let size := size + len
  let data := data.take size ++ (List.range (size - data.length)).map junk
  let data ← memcpy data (size - len) buf 0 len
  .ok (data, size, buf)

def addLoop (junk : Nat → UInt8) : List (Bytes × Bytes) → Bytes × Nat × Bytes → Res (Bytes × Nat × Bytes)
  | [], st => .ok st
  | (k, v) :: ps, st => do
    let st ← addOne junk k v st
    addLoop junk ps st

/-- `exec_addenv(env, &size, n, k1, v1, …)`: the new block and size.  A NULL `env` is the empty block. -/
def execAddenv (junk : Nat → UInt8) (env : Bytes) (size : Nat) (ps : List (Bytes × Bytes)) : Res (Bytes × Nat) := do
  let r ← addLoop junk ps (env, size, calloc 2048)
  .ok (r.1, r.2.1)

theorem snprintf2k_length {buf text : Bytes} (h : buf.length = 2048) : (snprintf2k buf text).1.length = 2048 := by
  simp only [snprintf2k, List.length_append, List.length_take, List.length_drop, List.length_cons, List.length_nil, h]
  omega

theorem addOne_short (junk : Nat → UInt8) (k v env buf : Bytes) (hb : buf.length = 2048) (hl : (pair k v).length ≤ 2047) :
    ∃ buf', buf'.length = 2048 ∧
      addOne junk k v (env, env.length, buf) = .ok (env ++ pair k v, env.length + (pair k v).length, buf') := by
  refine ⟨(snprintf2k buf (pair k v)).1, snprintf2k_length hb, ?_⟩
  have hlen := snprintf2k_length (text := pair k v) hb
  unfold addOne
  obtain ⟨t, ht⟩ : ∃ t, t = pair k v := ⟨_, rfl⟩
  rw [← ht] at hl hlen ⊢
  have h1 : (snprintf2k buf t).2 = t.length := rfl
  have h2 : (snprintf2k buf t).1.take t.length = t := by
    have : t.take 2047 = t := List.take_of_length_le hl
    simp only [snprintf2k, this, List.append_assoc, List.take_left']
  simp only [h1]
  rw [show env.length + t.length - env.length = t.length by omega, show env.length + t.length - t.length = env.length by omega,
    List.take_of_length_le (by omega)]
  have e : memcpy (env ++ (List.range t.length).map junk) env.length (snprintf2k buf t).1 0 t.length =
      .ok (env ++ t) := by
    unfold memcpy
    rw [if_pos (by simp; omega)]
    simp [h2]
  rw [e]
  rfl

/-- The specification: the pairs in order after the old block. -/
def joined (ps : List (Bytes × Bytes)) : Bytes := (ps.map fun p => pair p.1 p.2).flatten

theorem addLoop_short (junk : Nat → UInt8) : ∀ (ps : List (Bytes × Bytes)) (env buf : Bytes), buf.length = 2048 →
    (∀ p ∈ ps, p.1.length + p.2.length + 2 ≤ 2047) →
    ∃ buf', addLoop junk ps (env, env.length, buf) = .ok (env ++ joined ps, env.length + (joined ps).length, buf')
  | [], env, buf, _, _ => ⟨buf, by simp [addLoop, joined]⟩
  | (k, v) :: ps, env, buf, hb, h => by
    have hk := h (k, v) (List.mem_cons_self ..)
    obtain ⟨b1, hb1, e1⟩ := addOne_short junk k v env buf hb (by simp [pair]; simp at hk; omega)
    obtain ⟨b2, e2⟩ := addLoop_short junk ps (env ++ pair k v) b1 hb1 fun p hp => h p (List.mem_cons_of_mem _ hp)
    refine ⟨b2, ?_⟩
    simp only [addLoop]
    rw [e1]
    simp only [Res.ok_bind]
    rw [show env.length + (pair k v).length = (env ++ pair k v).length by simp, e2]
    simp [joined, Nat.add_assoc]

/-- Claim C55 for pairs of at most 2047 bytes with `=` and `;`: the pairs follow the old block in order, the old bytes are kept and
the size is exact. -/
theorem addenv_appends_partial (junk : Nat → UInt8) (env : Bytes) (ps : List (Bytes × Bytes))
    (h : ∀ p ∈ ps, p.1.length + p.2.length + 2 ≤ 2047) :
    execAddenv junk env env.length ps = .ok (env ++ joined ps, (env ++ joined ps).length) := by
  obtain ⟨b, e⟩ := addLoop_short junk ps env (calloc 2048) (List.length_replicate ..) h
  unfold execAddenv
  rw [e]
  simp

example : execAddenv (fun _ => 7) [120, 61, 49, 59] 4 [([97], [98]), ([99], [])] =
    .ok ([120, 61, 49, 59, 97, 61, 98, 59, 99, 61, 59], 11) :=
  addenv_appends_partial (fun _ => 7) [120, 61, 49, 59] [([97], [98]), ([99], [])] (by decide)

/-- Against C55: a pair longer than the buffer reads beyond it. -/
theorem addenv_long_pair_ub (junk : Nat → UInt8) (env k v : Bytes) (ps : List (Bytes × Bytes))
    (h : 2048 < k.length + v.length + 2) : execAddenv junk env env.length ((k, v) :: ps) = .ub := by
  have hl : (pair k v).length = k.length + v.length + 2 := by simp [pair]; omega
  have hb : (snprintf2k (calloc 2048) (pair k v)).1.length = 2048 := snprintf2k_length (List.length_replicate ..)
  have e : addOne junk k v (env, env.length, calloc 2048) = .ub := by
    unfold addOne
    have h1 : (snprintf2k (calloc 2048) (pair k v)).2 = (pair k v).length := rfl
    simp only [h1]
    have : ∀ d : Bytes, memcpy d (env.length + (pair k v).length - (pair k v).length)
        (snprintf2k (calloc 2048) (pair k v)).1 0 (pair k v).length = .ub := by
      intro d
      unfold memcpy
      rw [if_neg (by omega)]
    rw [this]
    rfl
  unfold execAddenv addLoop
  rw [e]
  rfl

/-- Against C55: a pair of exactly 2048 bytes ends in NUL instead of `;`. -/
theorem addenv_2048_wrong (junk : Nat → UInt8) (env k v : Bytes) (h : k.length + v.length + 2 = 2048) :
    execAddenv junk env env.length [(k, v)] = .ok (env ++ (k ++ [61] ++ v ++ [0]), env.length + 2048) := by
  have hl : (pair k v).length = 2048 := by simp [pair]; omega
  have ht : (pair k v).take 2047 = k ++ [61] ++ v := by
    unfold pair
    rw [List.take_left' (by simp; omega)]
  have h1 : snprintf2k (calloc 2048) (pair k v) = (k ++ [61] ++ v ++ [0], 2048) := by
    unfold snprintf2k
    rw [ht, hl, List.drop_of_length_le (by unfold calloc; rw [List.length_replicate]; decide), List.append_nil]
  have e : memcpy (env ++ (List.range 2048).map junk) env.length (k ++ [61] ++ v ++ [0]) 0 2048 =
      .ok (env ++ (k ++ [61] ++ v ++ [0])) := by
    unfold memcpy
    have hk : (k ++ [61] ++ v ++ [(0 : UInt8)]).length = 2048 := by simp; omega
    have hj : (env ++ (List.range 2048).map junk).length = env.length + 2048 := by
      rw [List.length_append, List.length_map, List.length_range]
    have ht : (k ++ [61] ++ v ++ [(0 : UInt8)]).take 2048 = k ++ [61] ++ v ++ [0] := List.take_of_length_le (by omega)
    rw [if_pos (by omega), List.drop_zero, ht, List.take_left, List.drop_of_length_le (by omega), List.append_nil]
  unfold execAddenv addLoop addOne
  simp only [h1]
  rw [show env.length + 2048 - env.length = 2048 by omega, show env.length + 2048 - 2048 = env.length by omega,
    List.take_of_length_le (by omega), e]
  rfl

/-- The block is not a C string: reading it as one, as `exec_info` does (src/os_unix.c:588), runs over its end. -/
theorem addenv_block_not_terminated (junk : Nat → UInt8) (env : Bytes) (ps : List (Bytes × Bytes)) (he : NulFree env)
    (hp : ∀ p ∈ ps, NulFree p.1 ∧ NulFree p.2) (h : ∀ p ∈ ps, p.1.length + p.2.length + 2 ≤ 2047) :
    ∃ data, execAddenv junk env env.length ps = .ok (data, data.length) ∧ strAt data 0 = .ub := by
  refine ⟨_, addenv_appends_partial junk env ps h, ?_⟩
  have hn : (0 : UInt8) ∉ env ++ joined ps := by
    intro hm
    rcases List.mem_append.1 hm with hm | hm
    · exact he 0 hm rfl
    · simp only [joined, List.mem_flatten, List.mem_map] at hm
      obtain ⟨_, ⟨p, hpm, rfl⟩, hm⟩ := hm
      have := hp p hpm
      simp only [pair, List.mem_append, List.mem_singleton] at hm
      rcases hm with ((hm | hm) | hm) | hm
      · exact this.1 0 hm rfl
      · exact absurd hm (by decide)
      · exact this.2 0 hm rfl
      · exact absurd hm (by decide)
  unfold strAt
  rw [if_neg]
  simpa using hn

end Verif.Io.Env
