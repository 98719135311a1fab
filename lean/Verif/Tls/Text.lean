import Verif.Str.Copy
import Verif.Str.CopyProps
import Verif.Str.SplitLemmas

/-!
# The text of a certificate (`src/async_tls.c` 624-656), C242

`x509_str` lets OpenSSL write the certificate into a memory BIO and copies it from there with `str_dup`.  The block of memory of such a
BIO is as long as it once had to be; what lies behind the bytes that were written is whatever was there before, and there is no end mark
(`BIO_s_mem(3)`: "the data … is not NUL terminated").
-/

namespace Verif.Tls.Text

open Verif

/-- What OpenSSL does.  `details`: what `X509_print` wrote, all or, if it failed, a part (the failure is only printed, 638-640); `pem`: what `PEM_write_bio_X509` wrote; `spare`:
the rest of the block of memory. -/
structure Env where
  bio : Bool := true
  details : Bytes := []
  write : Bool := true
  pem : Bytes
  spare : Bytes

/-- What is in the memory BIO. -/
def written (e : Env) (show_ : Bool) : Bytes := (if show_ then e.details else []) ++ e.pem

/-- `x509_str`, async_tls.c:624-656; `none`: it returns `NULL`.  Left out: what is printed to `stderr`. -/
def x509Str (cert : Bool) (show_ : Bool) (e : Env) : Res (Option Bytes) :=
  if !cert then .ok none
  else if !e.bio then .ok none
  else if !e.write then .ok none
  else do
    let d ← Str.strDup (written e show_ ++ e.spare)
    .ok (some d)

/-! ## C242 -/

theorem dup_of {w z : Bytes} (hw : NulFree w) : ∃ d, Str.strDup (w ++ 0 :: z) = .ok d ∧ strAt d 0 = .ok w := by
  obtain ⟨y, hy⟩ := Str.memdup_spec (w ++ 0 :: z) 0 w.length (by simp)
  have e : ((w ++ 0 :: z).drop 0).take w.length = w := by simp
  rw [e] at hy
  refine ⟨w ++ 0 :: y, ?_, Str.strAt_z hw⟩
  unfold Str.strDup
  rw [Str.strAt_z hw]
  exact hy

theorem nulFree_append {a b : Bytes} (ha : NulFree a) (hb : NulFree b) : NulFree (a ++ b) := by
  intro x hx
  rcases List.mem_append.1 hx with h | h
  · exact ha x h
  · exact hb x h

/-- The text is what OpenSSL wrote, if by luck the byte behind it is zero.  The full claim is without that hypothesis. -/
theorem text_exact_partial (e : Env) (show_ : Bool) (z : Bytes) (h1 : e.bio = true) (h2 : e.write = true) (hd : NulFree e.details)
    (hp : NulFree e.pem) (hs : e.spare = 0 :: z) :
    ∃ d, x509Str true show_ e = .ok (some d) ∧ strAt d 0 = .ok ((if show_ then e.details else []) ++ e.pem) := by
  have hw : NulFree (written e show_) := by
    unfold written
    split
    · exact nulFree_append hd hp
    · simpa using hp
  obtain ⟨d, h3, h4⟩ := dup_of (z := z) hw
  refine ⟨d, ?_, h4⟩
  simp only [x509Str, h1, h2, hs]
  simp [h3]

example : (x509Str true true { details := [65], pem := [66, 67], spare := [0, 7] }) = .ok (some [65, 66, 67, 0]) := by decide

/-- What else is in the block of memory follows the text, whatever it is. -/
theorem garbage_follows (e : Env) (show_ : Bool) (g z : Bytes) (h1 : e.bio = true) (h2 : e.write = true) (hd : NulFree e.details)
    (hp : NulFree e.pem) (hg : NulFree g) (hne : g ≠ []) (hs : e.spare = g ++ 0 :: z) :
    ∃ d t, x509Str true show_ e = .ok (some d) ∧ strAt d 0 = .ok t ∧
      t = (if show_ then e.details else []) ++ e.pem ++ g ∧ t ≠ (if show_ then e.details else []) ++ e.pem := by
  have hw : NulFree (written e show_ ++ g) := by
    refine nulFree_append ?_ hg
    unfold written
    split
    · exact nulFree_append hd hp
    · simpa using hp
  obtain ⟨d, h3, h4⟩ := dup_of (z := z) hw
  refine ⟨d, _, ?_, h4, rfl, ?_⟩
  · simp only [x509Str, h1, h2, hs]
    rw [List.append_assoc] at h3
    simp [h3]
  · intro h
    have := congrArg List.length h
    simp [written] at this
    exact hne this

example : (x509Str true false { pem := [66, 67], spare := [90, 91, 0] }) = .ok (some [66, 67, 90, 91, 0, 0]) := by decide

/-- If there is no zero byte, or no byte at all, behind the text, it is read beyond the end of the block. -/
theorem reads_beyond (e : Env) (show_ : Bool) (h1 : e.bio = true) (h2 : e.write = true) (hd : NulFree e.details) (hp : NulFree e.pem)
    (hs : NulFree e.spare) : x509Str true show_ e = .ub := by
  have hw : NulFree (written e show_ ++ e.spare) := by
    refine nulFree_append ?_ hs
    unfold written
    split
    · exact nulFree_append hd hp
    · simpa using hp
  have : Str.strDup (written e show_ ++ e.spare) = .ub := by
    unfold Str.strDup strAt
    rw [List.drop_zero, if_neg (fun h => hw 0 h rfl)]
    rfl
  simp only [x509Str, h1, h2]
  simp [this]

example : x509Str true false { pem := [66, 67], spare := [] } = .ub := by decide

/-- Without a certificate, without memory for the BIO or if it cannot be written: `NULL`, and nothing is read. -/
theorem no_text (e : Env) (cert show_ : Bool) (h : cert = false ∨ e.bio = false ∨ e.write = false) :
    x509Str cert show_ e = .ok none := by
  unfold x509Str
  rcases h with h | h | h <;> simp [h]

example : x509Str false true { pem := [66], spare := [] } = .ok none := by decide

end Verif.Tls.Text
