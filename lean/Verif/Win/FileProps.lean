import Verif.Win.File

/-!
# Properties of `pread`, `pwrite` and `sendfile` for Windows
-/

namespace Verif.Win

/-- The bytes of a file from `off` on, at most `n`. -/
def slice (data : Bytes) (off n : Nat) : Bytes := (data.drop off).take n

/-- C167 (the part that holds): when nothing fails and nobody else uses the descriptor meanwhile, `pread` returns the
bytes at the given offset (as many as the system hands out, up to the end of the file) and leaves the position and the
file as they were; the same for any outcome of the first two `lseek`.  Missing: a failing read
(`pread_failure_moves`) and another user of the descriptor (`pread_not_atomic`). -/
theorem pread_partial (f : File) (n off k : Nat) (cur set : Bool) :
    pread f n off { cur, set, io := some k } =
      if cur ∧ set then (some (slice f.data off (min n k)), f) else (none, f) := by
  cases cur <;> cases set <;> simp [pread, File.seek, File.read, slice]

/-- Byte `i` of a file, zero behind its end. -/
def byteAt (data : Bytes) (i : Nat) : UInt8 := data.getD i 0

theorem place_length (data w : Bytes) (p : Nat) : (place data p w).length = max data.length (p + w.length) ∨ w = [] := by
  rcases w with _ | ⟨x, w⟩
  · exact Or.inr rfl
  · left
    simp [place]
    omega

theorem place_byte (data w : Bytes) (p i : Nat) :
    byteAt (place data p w) i = if p ≤ i ∧ i < p + w.length then byteAt w (i - p) else byteAt data i := by
  unfold byteAt place
  simp only [List.getD_eq_getElem?_getD]
  have hl : ((data ++ List.replicate (p - data.length) 0).take p).length = p := by simp; omega
  rcases Nat.lt_or_ge i p with h1 | h1
  · rw [if_neg (by omega), List.append_assoc, List.getElem?_append_left (by omega), List.getElem?_take_of_lt h1]
    rcases Nat.lt_or_ge i data.length with h2 | h2
    · rw [List.getElem?_append_left h2]
    · rw [List.getElem?_append_right h2, List.getElem?_replicate, if_pos (by omega), List.getElem?_eq_none h2]
      rfl
  · rw [List.append_assoc, List.getElem?_append_right (by omega), hl]
    rcases Nat.lt_or_ge i (p + w.length) with h2 | h2
    · rw [if_pos ⟨h1, h2⟩, List.getElem?_append_left (by omega)]
    · rw [if_neg (by omega), List.getElem?_append_right (by omega), List.getElem?_drop]
      congr 2
      omega

/-- C167 (the part that holds): under the same conditions `pwrite` puts the first bytes of `w` (as many as it reports)
at the given offset, changes no other byte and leaves the position as it was. -/
theorem pwrite_partial (f : File) (w : Bytes) (off k : Nat) :
    ∃ n f', pwrite f w off { io := some k } = (some n, f') ∧ n = min k w.length ∧ f'.pos = f.pos ∧
      ∀ i, byteAt f'.data i = if off ≤ i ∧ i < off + n then byteAt w (i - off) else byteAt f.data i := by
  refine ⟨(w.take k).length, ⟨place f.data off (w.take k), f.pos⟩, ?_, by simp, rfl, ?_⟩
  · simp [pwrite, File.seek, File.write]
  · intro i
    rw [place_byte]
    split
    · rename_i h
      have : i - off < k := by simp at h; omega
      simp only [byteAt, List.getD_eq_getElem?_getD, List.getElem?_take_of_lt this]
    · rfl

/-- C167, negated: when the transfer fails, the position is left at the offset, for every file and offset. -/
theorem pread_failure_moves (f : File) (n off : Nat) (w : Bytes) :
    pread f n off { io := none } = (none, { f with pos := off }) ∧
      pwrite f w off { io := none } = (none, { f with pos := off }) := by
  simp [pread, pwrite, File.seek, File.read, File.write]

/-- C167, negated: someone who reads `m` bytes in sequence from the same descriptor during a `pread` gets the bytes at
the offset of the `pread`, and reads behind them on the wrong side: the `pread` puts the position back to where it
was, and itself returns the bytes behind the ones it was to return. -/
theorem pread_not_atomic (f : File) (n off m : Nat) :
    ∃ g, (∀ h : File, h.read m (some m) = some (slice h.data h.pos m, g h)) ∧
      pread f n off { io := some n, between := g } =
        (some (slice f.data (off + (slice f.data off m).length) n), f) ∧
      (g { f with pos := off }).pos = off + (slice f.data off m).length := by
  refine ⟨fun h => { h with pos := h.pos + (slice h.data h.pos m).length }, ?_, ?_, rfl⟩
  · intro h
    simp [File.read, slice]
  · simp [pread, File.seek, File.read, slice]

example : pread ⟨[1, 2, 3, 4, 5], 1⟩ 2 3 {} = (some [4, 5], ⟨[1, 2, 3, 4, 5], 1⟩) := by decide
example : pwrite ⟨[1, 2, 3], 1⟩ [7, 8] 4 {} = (some 2, ⟨[1, 2, 3, 0, 7, 8], 1⟩) := by decide

/-! ### `sendfile` -/

/-- The system takes all it is given, and a read hands out at least one byte as long as there are bytes. -/
def Full (r : Round) : Prop := (∃ k, r.rd = some k ∧ 0 < k) ∧ (∃ k, r.wr = some k ∧ 65536 ≤ k)

theorem full_default : Full {} := ⟨⟨65536, rfl, by decide⟩, ⟨65536, rfl, by decide⟩⟩

theorem sendLoop_full (buf : Nat) (hbuf : buf ≤ 65536) (fuel : Nat) (rs : List Round) (hrs : ∀ r ∈ rs, Full r) (f : File)
    (out : Bytes) (length res : Nat) (hb0 : 0 < length → 0 < buf) (hf : length < fuel) :
    sendLoop buf fuel rs f out length res =
      .ok (some (res + (slice f.data f.pos length).length),
        { f with pos := f.pos + (slice f.data f.pos length).length }, out ++ slice f.data f.pos length) := by
  induction fuel generalizing rs f out length res with
  | zero => omega
  | succ fuel ih =>
    unfold sendLoop
    by_cases h0 : length = 0
    · rw [if_pos h0]
      subst h0
      simp [slice]
    · rw [if_neg h0]
      have hfull : Full (rs.headD {}) := by
        cases rs with
        | nil => exact full_default
        | cons r rs => exact hrs r (by simp)
      obtain ⟨⟨a, ha, hapos⟩, ⟨b, hb, hbb⟩⟩ := hfull
      have hbuf0 := hb0 (by omega)
      have hread : f.read (min length buf) (some a) = some (slice f.data f.pos (min (min length buf) a),
          { f with pos := f.pos + (slice f.data f.pos (min (min length buf) a)).length }) := rfl
      dsimp only
      rw [ha, hread]
      dsimp only
      set m := min (min length buf) a with hm
      have hlen : (slice f.data f.pos m).length = min m (f.data.length - f.pos) := by simp [slice]
      by_cases hg : (slice f.data f.pos m).length = 0
      · rw [if_pos hg]
        have hend : f.data.length ≤ f.pos := by omega
        have e1 : slice f.data f.pos m = [] := List.length_eq_zero_iff.1 hg
        have e2 : slice f.data f.pos length = [] := by
          unfold slice; rw [List.drop_eq_nil_of_le hend]; simp
        rw [e1, e2]
        simp
      · rw [if_neg hg, hb]
        dsimp only
        have hpart : (slice f.data f.pos m).take b = slice f.data f.pos m := by
          apply List.take_of_length_le
          omega
        rw [hpart, ih rs.tail (fun r hr => hrs r (List.mem_of_mem_tail hr)) _ _ _ _ (by omega) (by omega)]
        dsimp only
        have hsplit : slice f.data f.pos length = slice f.data f.pos m ++
            slice f.data (f.pos + (slice f.data f.pos m).length) (length - (slice f.data f.pos m).length) := by
          unfold slice
          rw [← List.drop_drop]
          generalize f.data.drop f.pos = l
          have hml : m ≤ length := by omega
          rcases Nat.lt_or_ge m l.length with hlt | hge
          · rw [List.length_take, Nat.min_eq_left (by omega)]
            rw [show length = m + (length - m) by omega, List.take_add]
            simp
          · rw [List.take_of_length_le hge, List.take_of_length_le (by omega : l.length ≤ length)]
            simp
        have hl2 := congrArg List.length hsplit
        rw [List.length_append] at hl2
        simp only [Res.ok.injEq, Prod.mk.injEq, Option.some.injEq, File.mk.injEq, true_and]
        exact ⟨by omega, by omega, by rw [List.append_assoc, ← hsplit]⟩

/-- C168 (the part that holds): with memory, and as long as no call fails and every write takes all it is given,
`sendfile` sends exactly the bytes from the offset (or, for -1, from the position) on: as many as asked for or as
there are, in order, once, and returns their number.  Missing: `*offset` is not moved on (`sendfile_offset_stays`), a
short write loses bytes (`sendfile_short_write_loses`), and a NULL `offset` is read (`sendfile_null`). -/
theorem sendfile_partial (rs : List Round) (hrs : ∀ r ∈ rs, Full r) (f : File) (out : Bytes) (length : Nat) :
    (∀ o, ∃ off', sendfile true true rs f out (.at o) length =
      .ok (some (slice f.data o length).length, off', { f with pos := o + (slice f.data o length).length },
        out ++ slice f.data o length)) ∧
    (∃ off', sendfile true true rs f out .minus length =
      .ok (some (slice f.data f.pos length).length, off', { f with pos := f.pos + (slice f.data f.pos length).length },
        out ++ slice f.data f.pos length)) := by
  constructor
  · intro o
    refine ⟨.at o, ?_⟩
    simp only [sendfile, File.seek, if_true]
    rw [if_neg (by simp), sendLoop_full _ (by omega) _ rs hrs _ _ _ _ (by omega) (by omega)]
    simp
  · refine ⟨.at 0, ?_⟩
    simp only [sendfile]
    rw [if_neg (by simp), sendLoop_full _ (by omega) _ rs hrs _ _ _ _ (by omega) (by omega)]
    simp

/-- C168, negated: `*offset` is not moved on by what was sent; it keeps its value, and for -1 it becomes 0, wherever
the position was. -/
theorem sendfile_offset_stays (rs : List Round) (f : File) (out : Bytes) (length o : Nat) (r : Option Nat) (off' : Off)
    (f' : File) (out' : Bytes) :
    (sendfile true true rs f out (.at o) length = .ok (r, off', f', out') → off' = .at o) ∧
    (sendfile true true rs f out .minus length = .ok (r, off', f', out') → off' = .at 0) := by
  constructor
  · intro h
    simp only [sendfile, File.seek, if_true] at h
    rw [if_neg (by simp)] at h
    rw [Res.bind_eq_ok] at h
    obtain ⟨⟨a, b, c⟩, _, h⟩ := h
    have := Res.ok.inj h
    simp only [Prod.mk.injEq] at this
    exact this.2.1.symm
  · intro h
    simp only [sendfile] at h
    rw [if_neg (by simp)] at h
    rw [Res.bind_eq_ok] at h
    obtain ⟨⟨a, b, c⟩, _, h⟩ := h
    have := Res.ok.inj h
    simp only [Prod.mk.injEq] at this
    exact this.2.1.symm

/-- C168, negated: whenever the receiver takes only the first `k` bytes, the rest of what was read is dropped: the
call reports success with `k`, but the file is at its end and `*offset` at its start. -/
theorem sendfile_short_write_loses (data : Bytes) (hd : data.length ≤ 65536) (k : Nat) (hk : k < data.length)
    (out : Bytes) :
    sendfile true true [{ wr := some k }] ⟨data, 0⟩ out (.at 0) data.length =
      .ok (some k, .at 0, ⟨data, data.length⟩, out ++ data.take k) := by
  have h1 : ¬ data.length = 0 := by omega
  have hm : min (min data.length (min data.length 65536)) 65536 = data.length := by omega
  simp only [sendfile, File.seek, if_true]
  rw [if_neg (by simp)]
  unfold sendLoop
  rw [if_neg h1]
  simp only [List.headD_cons, File.read, hm, List.drop_zero, List.take_length, h1, if_false, Nat.zero_add, Nat.sub_self,
    List.tail_cons]
  obtain ⟨n, hn⟩ : ∃ n, data.length = n + 1 := ⟨data.length - 1, by omega⟩
  have e : ∀ f o r, sendLoop (min data.length 65536) data.length [] f o 0 r = .ok (some r, f, o) := by
    intro f o r
    rw [hn]
    simp [sendLoop]
  rw [e]
  simp
  omega

/-- C168, negated: a NULL `offset` (POSIX: send from the position and move it) is dereferenced. -/
theorem sendfile_null (seek : Bool) (rs : List Round) (f : File) (out : Bytes) (length : Nat) :
    sendfile true seek rs f out .null length = .ub := by
  simp [sendfile]

/-- C168: the call never runs outside of the file or for ever, and whatever the system does, a call that succeeds has
sent as many bytes as it reports. -/
theorem sendfile_count (mem seek : Bool) (rs : List Round) (f : File) (out : Bytes) (off : Off) (length : Nat)
    (hoff : off ≠ .null) :
    ∃ r off' f' out', sendfile mem seek rs f out off length = .ok (r, off', f', out') ∧ f'.data = f.data ∧
      (∃ sent, out' = out ++ sent ∧ sent.length ≤ length ∧ ∀ n, r = some n → n = sent.length) := by
  have loop : ∀ (buf fuel : Nat) (rs : List Round) (f : File) (out : Bytes) (length res : Nat), length < fuel →
      ∃ r f' sent, sendLoop buf fuel rs f out length res = .ok (r, f', out ++ sent) ∧ f'.data = f.data ∧
        sent.length ≤ length ∧ ∀ n, r = some n → n = res + sent.length := by
    intro buf fuel
    induction fuel with
    | zero => intro _ _ _ _ _ h; omega
    | succ fuel ih =>
      intro rs f out length res hlt
      unfold sendLoop
      by_cases h0 : length = 0
      · rw [if_pos h0]
        exact ⟨some res, f, [], by simp, rfl, by simp, by simp⟩
      · rw [if_neg h0]
        dsimp only
        cases hr : (rs.headD {}).rd with
        | none => exact ⟨none, f, [], by simp [File.read], rfl, by simp, by simp⟩
        | some a =>
          simp only [File.read]
          set got := (f.data.drop f.pos).take (min (min length buf) a) with hgot
          have hgl : got.length ≤ length := by rw [hgot, List.length_take]; omega
          by_cases hg : got.length = 0
          · rw [if_pos hg]
            exact ⟨some res, ⟨f.data, f.pos + got.length⟩, [], by simp, rfl, by simp, by simp⟩
          · rw [if_neg hg]
            cases hw : (rs.headD {}).wr with
            | none => exact ⟨none, ⟨f.data, f.pos + got.length⟩, [], by simp, rfl, by simp, by simp⟩
            | some k =>
              dsimp only
              obtain ⟨r, f', sent, e, h1, h2, h3⟩ := ih rs.tail ⟨f.data, f.pos + got.length⟩ (out ++ got.take k)
                (length - got.length) (res + (got.take k).length) (by omega)
              refine ⟨r, f', got.take k ++ sent, by rw [e]; simp, h1, ?_, ?_⟩
              · simp only [List.length_append, List.length_take]
                omega
              · intro n hn
                rw [h3 n hn]
                simp only [List.length_append]
                omega
  unfold sendfile
  dsimp only
  cases mem with
  | false => exact ⟨none, off, f, out, rfl, rfl, [], by simp, by simp, by simp⟩
  | true =>
    rw [if_neg (by simp)]
    cases off with
    | null => exact absurd rfl hoff
    | minus =>
      obtain ⟨r, f', sent, e, h1, h2, h3⟩ := loop (min length 65536) (length + 1) rs f out length 0 (by omega)
      dsimp only
      rw [e]
      exact ⟨r, .at 0, f', _, rfl, h1, sent, rfl, h2, fun n hn => by rw [h3 n hn]; omega⟩
    | «at» o =>
      cases seek with
      | false => exact ⟨none, .minus, f, out, rfl, rfl, [], by simp, by simp, by simp⟩
      | true =>
        obtain ⟨r, f', sent, e, h1, h2, h3⟩ := loop (min length 65536) (length + 1) rs ⟨f.data, o⟩ out length 0 (by omega)
        simp only [File.seek, if_true]
        rw [e]
        exact ⟨r, .at o, f', _, rfl, h1, sent, rfl, h2, fun n hn => by rw [h3 n hn]; omega⟩

example : sendfile true true [{ rd := some 2 }] ⟨[1, 2, 3, 4, 5], 0⟩ [9] (.at 1) 3 =
    .ok (some 3, .at 1, ⟨[1, 2, 3, 4, 5], 4⟩, [9, 2, 3, 4]) := by decide

end Verif.Win
