import Verif.Win.Open

/-!
# Properties of `os_open` for Windows
-/

namespace Verif.Win

/-- The access asked for, as two of the lowest bits of the flags say: 0 read, 1 write, 2 both. -/
inductive Access
  | rd | wr | rdwr
  deriving Repr, DecidableEq

/-- Flags asking for an access. -/
def Asks (flags : Word) : Access → Prop
  | .rd => flags &&& 1 = 0 ∧ flags &&& 2 = 0
  | .wr => flags &&& 1 ≠ 0 ∧ flags &&& 2 = 0
  | .rdwr => flags &&& 1 = 0 ∧ flags &&& 2 ≠ 0

/-- What `open` is to do (POSIX), for the bits create, exclusive and truncate. -/
def posixOpen (file : Option Bytes) (acc : Access) (creat excl trunc : Bool) : Option Opened :=
  let opened (d : Bytes) : Option Opened := some { data := d, canRead := acc ≠ .wr, canWrite := acc ≠ .rd }
  match file with
  | some d => if creat && excl then none else if trunc then opened [] else opened d
  | none => if creat then opened [] else none

theorem has_true {m b : Word} (h : m &&& b ≠ 0) : has m b = true := by
  unfold has; exact bne_iff_ne.2 h
theorem has_false {m b : Word} (h : m &&& b = 0) : has m b = false := by simp [has, h]
theorem has_rdonly (m : Word) : has m O_RDONLY = false := by simp [has, O_RDONLY]

theorem asks_bits {flags : Word} {acc : Access} (h : Asks flags acc) :
    has flags O_WRONLY = (acc == .wr) ∧ has flags O_RDWR = (acc == .rdwr) := by
  cases acc
  · exact ⟨has_false h.1, has_false h.2⟩
  · exact ⟨has_true h.1, has_false h.2⟩
  · exact ⟨has_false h.1, has_true h.2⟩

/-- C169 (the part that holds): opening for both reading and writing does what POSIX says, whatever exists under the
name, if the flags have neither create, exclusive nor truncate, or create and exclusive, or if nothing exists and they
have create and not truncate.  Missing: reading only (`async_open_cannot_read`), create for an existing file
(`async_open_erases`), truncate (`async_open_trunc_fails`, `async_open_excl_truncates`). -/
theorem async_open_partial (file : Option Bytes) (flags : Word) (hacc : Asks flags .rdwr)
    (hasync : flags &&& 0x500000 ≠ 0) (htrunc : flags &&& 0x200 = 0)
    (h : (flags &&& 0x100 = 0 ∧ flags &&& 0x400 = 0) ∨ (flags &&& 0x100 ≠ 0 ∧ flags &&& 0x400 ≠ 0) ∨
      (flags &&& 0x100 ≠ 0 ∧ file = none)) :
    asyncOpen file flags = posixOpen file .rdwr (has flags O_CREAT) (has flags O_EXCL) false := by
  obtain ⟨h1, h2⟩ := asks_bits hacc
  have h3 : has flags O_TRUNC = false := has_false htrunc
  have h4 : has flags O_ASYNC = true := has_true hasync
  unfold asyncOpen osOpenAsk
  rw [has_rdonly, h1, h2, h3, h4]
  rcases h with ⟨hc, he⟩ | ⟨hc, he⟩ | ⟨hc, rfl⟩
  · have h5 : has flags O_CREAT = false := has_false hc
    have h6 : has flags O_EXCL = false := has_false he
    rw [h5, h6]
    cases has flags O_DIRECTORY <;> cases file <;> rfl
  · have h5 : has flags O_CREAT = true := has_true hc
    have h6 : has flags O_EXCL = true := has_true he
    rw [h5, h6]
    cases has flags O_DIRECTORY <;> cases file <;> rfl
  · have h5 : has flags O_CREAT = true := has_true hc
    rw [h5]
    cases has flags O_DIRECTORY <;> cases has flags O_EXCL <;> rfl

/-- C169, negated: a file opened for reading only cannot be read, and may be written. -/
theorem async_open_cannot_read (file : Option Bytes) (flags : Word) (hacc : Asks flags .rd)
    (hasync : flags &&& 0x500000 ≠ 0) (o : Opened) (h : asyncOpen file flags = some o) :
    o.canRead = false ∧ o.canWrite = true := by
  obtain ⟨h1, h2⟩ := asks_bits hacc
  have h4 : has flags O_ASYNC = true := has_true hasync
  have ha : ∃ a, (osOpenAsk flags false).access = a ∧ has a GENERIC_READ = false ∧ has a GENERIC_WRITE = true := by
    refine ⟨_, rfl, ?_⟩
    unfold osOpenAsk
    rw [has_rdonly, h1, h2, h4]
    dsimp only
    cases has flags O_DIRECTORY <;> decide
  obtain ⟨a, ha, hr, hw⟩ := ha
  unfold asyncOpen createFile at h
  rw [ha, hr, hw] at h
  dsimp only at h
  repeat' split at h
  all_goals first
    | (obtain rfl := Option.some.inj h; exact ⟨rfl, rfl⟩)
    | simp at h

/-- and it is not impossible: an existing file is opened so. -/
theorem async_open_rdonly_opens (data : Bytes) :
    asyncOpen (some data) 0x500000 = some { data, canRead := false, canWrite := true } ∧
      posixOpen (some data) .rd false false false = some { data, canRead := true, canWrite := false } := by
  exact ⟨rfl, rfl⟩

/-- C169, negated: an existing file opened with create, without truncate, loses its bytes, for every access. -/
theorem async_open_erases (data : Bytes) (flags : Word) (acc : Access) (hacc : Asks flags acc)
    (hcreat : flags &&& 0x100 ≠ 0) (hexcl : flags &&& 0x400 = 0) (htrunc : flags &&& 0x200 = 0) :
    (asyncOpen (some data) flags).map Opened.data = some [] ∧
      (posixOpen (some data) acc true false false).map Opened.data = some data := by
  obtain ⟨h1, h2⟩ := asks_bits hacc
  have h3 : has flags O_TRUNC = false := has_false htrunc
  have h5 : has flags O_CREAT = true := has_true hcreat
  have h6 : has flags O_EXCL = false := has_false hexcl
  refine ⟨?_, rfl⟩
  unfold asyncOpen osOpenAsk
  rw [has_rdonly, h1, h2, h3, h5, h6]
  rfl

/-- C169, negated: with truncate and without exclusive no file can be opened, whether it exists or not. -/
theorem async_open_trunc_fails (file : Option Bytes) (flags : Word) (hexcl : flags &&& 0x400 = 0)
    (htrunc : flags &&& 0x200 ≠ 0) : asyncOpen file flags = none := by
  have h3 : has flags O_TRUNC = true := has_true htrunc
  have h6 : has flags O_EXCL = false := has_false hexcl
  have hc : (osOpenAsk flags false).creation = 7 := by
    unfold osOpenAsk
    rw [h3, h6]
    cases has flags O_CREAT <;> rfl
  unfold asyncOpen createFile
  rw [hc]
  rfl

/-- C169, negated: with create, exclusive and truncate, an existing file is opened and emptied instead of refused, and
a missing one is refused instead of created. -/
theorem async_open_excl_truncates (data : Bytes) (flags : Word) (hexcl : flags &&& 0x400 ≠ 0)
    (htrunc : flags &&& 0x200 ≠ 0) (hasync : flags &&& 0x500000 ≠ 0) :
    (asyncOpen (some data) flags).map Opened.data = some [] ∧ asyncOpen none flags = none := by
  have h3 : has flags O_TRUNC = true := has_true htrunc
  have h6 : has flags O_EXCL = true := has_true hexcl
  have h4 : has flags O_ASYNC = true := has_true hasync
  unfold asyncOpen osOpenAsk
  rw [has_rdonly, h3, h4, h6]
  constructor
  · cases has flags O_CREAT <;> cases has flags O_WRONLY <;> cases has flags O_RDWR <;> cases has flags O_DIRECTORY <;> rfl
  · cases has flags O_CREAT <;> cases has flags O_WRONLY <;> cases has flags O_RDWR <;> cases has flags O_DIRECTORY <;> rfl

/-- `O_RDWR | O_CREAT | O_EXCL | O_ASYNC`, and `O_RDWR | O_ASYNC` of an existing file. -/
example : asyncOpen none 0x500502 = some ⟨[], true, true⟩ ∧ asyncOpen (some [1, 2]) 0x500502 = none ∧
    asyncOpen (some [1, 2]) 0x500002 = some ⟨[1, 2], true, true⟩ := by decide

/-- The hypotheses of the negations: `O_ASYNC`, `O_CREAT | O_WRONLY | O_ASYNC`, `O_TRUNC | O_WRONLY | O_ASYNC`,
`O_CREAT | O_EXCL | O_TRUNC | O_RDWR | O_ASYNC`. -/
example : Asks 0x500000 .rd ∧ Asks 0x500101 .wr ∧ Asks 0x500201 .wr ∧ Asks 0x500702 .rdwr := by
  unfold Asks; decide

end Verif.Win
