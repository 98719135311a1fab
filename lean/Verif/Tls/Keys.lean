import Mathlib.Data.List.Basic

/-!
# Making keys and certificates (`src/async_tls.c` 366-416, 434-499, 501-607), C236, C237

`rsa_pkey`, `x509_self_export` and `x509_pkey_write` run `thrd_worker_thread` on a thread of the pool.  The model has the objects of
OpenSSL that exist and the two files; each call into OpenSSL that can fail asks `Env` whether it does.  `none` is memory freed twice.

Simplified: the names of the files are those of `Tls/Names` and do not change here; the content of a certificate is the key pair it
was made for; the extensions of a certificate (517-546) are left out.  A key pair has the number of the object that was made for it.
-/

namespace Verif.Tls.Keys

/-- What is in a file: nothing was there, all of what belongs to a key pair, or a part of something. -/
inductive File where
  | absent
  | whole (pair : Nat)
  | cut
  deriving DecidableEq, Repr

/-- `live`: the objects of OpenSSL that exist. -/
structure St where
  next : Nat := 0
  live : List Nat := []
  keyFile : File := .absent
  certFile : File := .absent
  deriving DecidableEq, Repr

/-- Which calls of OpenSSL work.  `frees`: `EVP_PKEY_keygen` frees the key it was given when it fails, as it does in OpenSSL before 3.0
and in LibreSSL. -/
structure Env where
  newKey : Bool := true
  ctx : Bool := true
  init : Bool := true
  newKeyInside : Bool := true
  keygen : Bool := true
  frees : Bool := false
  newCert : Bool := true
  sign : Bool := true
  openKey : Bool := true
  writeKey : Bool := true
  openCert : Bool := true
  writeCert : Bool := true

/-- `EVP_PKEY_new`, `EVP_PKEY_CTX_new_id`, `X509_new`. -/
def alloc (st : St) : Nat × St := (st.next, { st with next := st.next + 1, live := st.next :: st.live })

/-- `EVP_PKEY_free`, `EVP_PKEY_CTX_free`, `X509_free`: `NULL` is allowed. -/
def release (x : Option Nat) (st : St) : Option St :=
  match x with
  | none => some st
  | some n => if n ∈ st.live then some { st with live := st.live.erase n } else none

/-- `EVP_PKEY_keygen(ctx, &pkey)` as `generate_pkey_ex` calls it (async_tls.c:403): `pkey` is the function's own copy of the pointer, so
a key made because it was `NULL` is lost, and that it was set to `NULL` is not seen by the caller. -/
def keygen (e : Env) (pkey : Option Nat) (st : St) : Option (Bool × St) :=
  match pkey with
  | some p =>
    if e.keygen then some (true, st)
    else if e.frees then (release (some p) st).map fun s => (false, s)
    else some (false, st)
  | none =>
    if e.newKeyInside then
      if e.keygen then some (true, (alloc st).2)
      else (release (some (alloc st).1) (alloc st).2).map fun s => (false, s)
    else some (false, st)

/-- `generate_pkey_ex` (async_tls.c:395-416) for `EVP_PKEY_RSA`. -/
def generate (e : Env) (pkey : Option Nat) (st : St) : Option (Bool × St) :=
  if e.ctx then
    let c := alloc st
    match (if e.init then keygen e pkey c.2 else some (false, c.2)) with
    | none => none
    | some r => (release (some c.1) r.2).map fun s => (r.1, s)
  else some (false, st)

/-- One of the two files: `BIO_new_file` with mode `w` empties the file, then it is written (async_tls.c:369-379, 381-390). -/
def put (opens writes : Bool) (pair : Nat) (old : File) : Bool × File :=
  if opens then (if writes then (true, .whole pair) else (false, .cut)) else (false, old)

/-- `create_self_ex` (async_tls.c:366-393): both files are written whatever becomes of the first. -/
def createSelf (e : Env) (key cert : Nat) (st : St) : Bool × St :=
  let k := put e.openKey e.writeKey key st.keyFile
  let c := put e.openCert e.writeCert cert st.certFile
  (k.1 && c.1, { st with
    keyFile := k.2
    certFile := c.2 })

/-- `x509_self_req` (async_tls.c:501-555) and `x509_self` (558-595): the certificate, or `NULL`.  `X509_sign` fails without a key. -/
def selfCert (e : Env) (pkey : Option Nat) (st : St) : Option (Option Nat × St) :=
  if e.newCert then
    let x := alloc st
    if e.sign && pkey.isSome then some (some x.1, x.2)
    else (release (some x.1) x.2).map fun s => (none, s)
  else some (none, st)

/-- The body of the cases `ssl_create_self_req` and `ssl_create_self` once there is a key pair (async_tls.c:448-457, 463-469). -/
def certify (e : Env) (pkey : Option Nat) (st : St) : Option (Bool × St) :=
  match selfCert e pkey st with
  | none => none
  | some (none, s) => some (false, s)
  | some (some x, s) =>
    let r := createSelf e (pkey.getD 0) (pkey.getD 0) s
    (release (some x) r.2).map fun s => (r.1, s)

/-- `thrd_worker_thread` for `ssl_create_self_req` and `ssl_create_self` (async_tls.c:446-472). -/
def selfReq (e : Env) (st : St) : Option (Bool × St) :=
  let p : Option Nat × St := if e.newKey then (some (alloc st).1, (alloc st).2) else (none, st)
  match generate e p.1 p.2 with
  | none => none
  | some (false, s) => (release p.1 s).map fun s => (false, s)
  | some (true, s) =>
    match certify e p.1 s with
    | none => none
    | some r => (release p.1 r.2).map fun s => (r.1, s)

/-- `x509_self_export(pkey, x509, path)` (async_tls.c:597-601): the three arguments are handed to the worker, which does not look at
them. -/
def selfExport (e : Env) (_pkey _x509 : Option Nat) (st : St) : Option (Bool × St) := selfReq e st

/-- `x509_pkey_write` (async_tls.c:603-607, 473-477) with the key of one pair and the certificate of another. -/
def pkeyWrite (e : Env) (key cert : Nat) (st : St) : Bool × St := createSelf e key cert st

/-- `rsa_pkey` (async_tls.c:484-499). -/
def rsaPkey (e : Env) (st : St) : Option (Option Nat × St) :=
  if e.newKey then
    match generate e (some (alloc st).1) (alloc st).2 with
    | none => none
    | some (true, s) => some (some (alloc st).1, s)
    | some (false, s) => (release (some (alloc st).1) s).map fun s => (none, s)
  else some (none, st)

/-! ## Specification -/

/-- The two files belong together. -/
def Match (st : St) : Prop := ∃ k, st.keyFile = .whole k ∧ st.certFile = .whole k

/-! ## C236: the pair of files -/

/-- `x509_pkey_write` says `true` exactly if both files could be opened and written, and then they hold what was given. -/
theorem pkey_write_says (e : Env) (key cert : Nat) (st : St) :
    ((pkeyWrite e key cert st).1 = true ↔ e.openKey = true ∧ e.writeKey = true ∧ e.openCert = true ∧ e.writeCert = true) ∧
    ((pkeyWrite e key cert st).1 = true →
      (pkeyWrite e key cert st).2.keyFile = .whole key ∧ (pkeyWrite e key cert st).2.certFile = .whole cert) := by
  simp only [pkeyWrite, createSelf, put]
  cases e.openKey <;> cases e.writeKey <;> cases e.openCert <;> cases e.writeCert <;> simp

example : (pkeyWrite {} 3 3 {}).1 = true := by decide

theorem release_files {x : Option Nat} {st s : St} (h : release x st = some s) :
    s.keyFile = st.keyFile ∧ s.certFile = st.certFile ∧ s.next = st.next := by
  cases x with
  | none => simp only [release, Option.some.injEq] at h; subst h; exact ⟨rfl, rfl, rfl⟩
  | some n =>
    simp only [release] at h
    split at h
    · simp only [Option.some.injEq] at h; subst h; exact ⟨rfl, rfl, rfl⟩
    · simp at h

theorem release_map_files {x : Option Nat} {st s : St} {α : Type} {a b : α}
    (h : (release x st).map (fun s => (a, s)) = some (b, s)) :
    a = b ∧ release x st = some s := by
  cases hr : release x st with
  | none => simp [hr] at h
  | some s' => simp only [hr, Option.map_some, Option.some.injEq, Prod.mk.injEq] at h; exact ⟨h.1, by rw [h.2]⟩

theorem keygen_files {e : Env} {p : Option Nat} {st s : St} {b : Bool} (h : keygen e p st = some (b, s)) :
    s.keyFile = st.keyFile ∧ s.certFile = st.certFile ∧ st.next ≤ s.next := by
  cases p with
  | some p =>
    simp only [keygen] at h
    split at h
    · simp only [Option.some.injEq, Prod.mk.injEq] at h; rw [← h.2]; exact ⟨rfl, rfl, Nat.le_refl _⟩
    · split at h
      · have := release_files (release_map_files h).2
        exact ⟨this.1, this.2.1, by omega⟩
      · simp only [Option.some.injEq, Prod.mk.injEq] at h; rw [← h.2]; exact ⟨rfl, rfl, Nat.le_refl _⟩
  | none =>
    simp only [keygen] at h
    split at h
    · split at h
      · simp only [Option.some.injEq, Prod.mk.injEq] at h; rw [← h.2]; exact ⟨rfl, rfl, Nat.le_succ _⟩
      · have := release_files (release_map_files h).2
        exact ⟨this.1, this.2.1, by rw [this.2.2]; exact Nat.le_succ _⟩
    · simp only [Option.some.injEq, Prod.mk.injEq] at h; rw [← h.2]; exact ⟨rfl, rfl, Nat.le_refl _⟩

theorem generate_files {e : Env} {p : Option Nat} {st s : St} {b : Bool} (h : generate e p st = some (b, s)) :
    s.keyFile = st.keyFile ∧ s.certFile = st.certFile ∧ st.next ≤ s.next := by
  simp only [generate] at h
  split at h
  · split at h
    · simp at h
    · rename_i r hr
      have h2 := release_files (release_map_files h).2
      have h1 : r.2.keyFile = st.keyFile ∧ r.2.certFile = st.certFile ∧ st.next ≤ r.2.next := by
        split at hr
        · have := keygen_files (b := r.1) (s := r.2) hr
          exact ⟨this.1, this.2.1, Nat.le_trans (Nat.le_succ _) this.2.2⟩
        · simp only [Option.some.injEq] at hr; rw [← hr]; exact ⟨rfl, rfl, Nat.le_succ _⟩
      exact ⟨h2.1.trans h1.1, h2.2.1.trans h1.2.1, by omega⟩
  · simp only [Option.some.injEq, Prod.mk.injEq] at h; rw [← h.2]; exact ⟨rfl, rfl, Nat.le_refl _⟩

theorem selfCert_files {e : Env} {p : Option Nat} {st s : St} {x : Option Nat} (h : selfCert e p st = some (x, s)) :
    s.keyFile = st.keyFile ∧ s.certFile = st.certFile ∧ (x.isSome → p.isSome) := by
  simp only [selfCert] at h
  split at h
  · split at h
    · rename_i hs
      simp only [Option.some.injEq, Prod.mk.injEq] at h
      rw [← h.2]
      simp only [Bool.and_eq_true] at hs
      exact ⟨rfl, rfl, fun _ => hs.2⟩
    · have h1 := release_map_files h
      have := release_files h1.2
      exact ⟨this.1, this.2.1, by rw [← h1.1]; simp⟩
  · simp only [Option.some.injEq, Prod.mk.injEq] at h; rw [← h.2, ← h.1]; exact ⟨rfl, rfl, by simp⟩

theorem certify_files {e : Env} {p : Option Nat} {st s : St} {b : Bool} (h : certify e p st = some (b, s)) :
    (b = true → ∃ k, p = some k ∧ s.keyFile = .whole k ∧ s.certFile = .whole k) ∧
    ((e.newCert && e.sign) = false → s.keyFile = st.keyFile ∧ s.certFile = st.certFile) ∧
    (s.keyFile = st.keyFile ∨ s.keyFile = .cut ∨ ∃ k, p = some k ∧ s.keyFile = .whole k) ∧
    (s.certFile = st.certFile ∨ s.certFile = .cut ∨ ∃ k, p = some k ∧ s.certFile = .whole k) := by
  simp only [certify] at h
  split at h
  · simp at h
  · rename_i s' hc
    have := selfCert_files hc
    simp only [Option.some.injEq, Prod.mk.injEq] at h
    obtain ⟨rfl, rfl⟩ := h
    refine ⟨by simp, fun _ => ⟨this.1, this.2.1⟩, Or.inl this.1, Or.inl this.2.1⟩
  · rename_i x s' hc
    have h1 := selfCert_files hc
    obtain ⟨hb, h2⟩ := release_map_files h
    have h3 := release_files h2
    obtain ⟨k, rfl⟩ := Option.isSome_iff_exists.1 (h1.2.2 rfl)
    rw [h3.1, h3.2.1, ← hb, ← h1.1, ← h1.2.1]
    refine ⟨?_, ?_, ?_, ?_⟩
    · intro hh
      refine ⟨k, rfl, ?_⟩
      have := (pkey_write_says e k k s').2 hh
      exact this
    · intro hn
      exfalso
      simp only [selfCert, Option.isSome_some, Bool.and_true] at hc
      rcases Bool.and_eq_false_iff.1 hn with hn | hn
      · simp [hn] at hc
      · simp only [hn] at hc
        split at hc
        · simp only [Bool.false_eq_true, if_false] at hc
          exact absurd (release_map_files hc).1 (by simp)
        · simp at hc
    · simp only [createSelf, put, Option.getD_some]
      split
      · split
        · exact Or.inr (Or.inr ⟨k, rfl, rfl⟩)
        · exact Or.inr (Or.inl rfl)
      · exact Or.inl rfl
    · simp only [createSelf, put, Option.getD_some]
      split
      · split
        · exact Or.inr (Or.inr ⟨k, rfl, rfl⟩)
        · exact Or.inr (Or.inl rfl)
      · exact Or.inl rfl

/-- The files after `selfReq`: as before, cut off, or of the pair made in this call. -/
theorem selfReq_files {e : Env} {st s : St} {b : Bool} (h : selfReq e st = some (b, s)) :
    (b = true → s.keyFile = .whole st.next ∧ s.certFile = .whole st.next) ∧
    ((e.newCert && e.sign) = false → s.keyFile = st.keyFile ∧ s.certFile = st.certFile) ∧
    (s.keyFile = st.keyFile ∨ s.keyFile = .cut ∨ s.keyFile = .whole st.next) ∧
    (s.certFile = st.certFile ∨ s.certFile = .cut ∨ s.certFile = .whole st.next) := by
  simp only [selfReq] at h
  have hp : ∀ k, (if e.newKey then (some (alloc st).1, (alloc st).2) else ((none : Option Nat), st)).1 = some k →
      k = st.next := by
    intro k hk
    split at hk
    · simp only [Option.some.injEq] at hk; exact hk.symm
    · simp at hk
  have hf : (if e.newKey then (some (alloc st).1, (alloc st).2) else ((none : Option Nat), st)).2.keyFile = st.keyFile ∧
      (if e.newKey then (some (alloc st).1, (alloc st).2) else ((none : Option Nat), st)).2.certFile = st.certFile := by
    split <;> exact ⟨rfl, rfl⟩
  generalize (if e.newKey then (some (alloc st).1, (alloc st).2) else ((none : Option Nat), st)) = p at h hp hf
  split at h
  · simp at h
  · rename_i s1 hg
    have h1 := generate_files hg
    obtain ⟨rfl, h2⟩ := release_map_files h
    have h3 := release_files h2
    have hk : s.keyFile = st.keyFile := (h3.1.trans h1.1).trans hf.1
    have hc : s.certFile = st.certFile := (h3.2.1.trans h1.2.1).trans hf.2
    exact ⟨by simp, fun _ => ⟨hk, hc⟩, Or.inl hk, Or.inl hc⟩
  · rename_i s1 hg
    have h1 := generate_files hg
    split at h
    · simp at h
    · rename_i r hr
      obtain ⟨hb, h2⟩ := release_map_files h
      have h3 := release_files h2
      obtain ⟨c1, c2, c3, c4⟩ := certify_files (b := r.1) (s := r.2) hr
      have hk : s1.keyFile = st.keyFile := h1.1.trans hf.1
      have hc : s1.certFile = st.certFile := h1.2.1.trans hf.2
      rw [h3.1, h3.2.1, ← hb, ← hk, ← hc]
      refine ⟨?_, c2, ?_, ?_⟩
      · intro ht
        obtain ⟨k, e1, e2⟩ := c1 ht
        rw [← hp k e1]
        exact e2
      · rcases c3 with c | c | ⟨k, e1, e2⟩
        · exact Or.inl c
        · exact Or.inr (Or.inl c)
        · exact Or.inr (Or.inr (by rw [← hp k e1]; exact e2))
      · rcases c4 with c | c | ⟨k, e1, e2⟩
        · exact Or.inl c
        · exact Or.inr (Or.inl c)
        · exact Or.inr (Or.inr (by rw [← hp k e1]; exact e2))

/-- When `x509_self_export` says `true` the two files belong together, and to a key that did not exist before. -/
theorem export_makes_pair (e : Env) (pkey x509 : Option Nat) (st s : St) (h : selfExport e pkey x509 st = some (true, s)) :
    Match s ∧ s.keyFile = .whole st.next := by
  have := (selfReq_files h).1 rfl
  exact ⟨⟨st.next, this⟩, this.1⟩

example : (selfExport {} none none {}).map (·.1) = some true := by decide

/-- `_partial`: a call that fails leaves both files as they were if no certificate could be made; missing is the failure while the files
are written, see `failed_export_breaks_pair`. -/
theorem failed_export_partial (e : Env) (pkey x509 : Option Nat) (st s : St) (b : Bool)
    (h : selfExport e pkey x509 st = some (b, s)) (hc : e.newCert = false ∨ e.sign = false) :
    b = false ∧ s.keyFile = st.keyFile ∧ s.certFile = st.certFile := by
  have hf := (selfReq_files h).2.1 (by rcases hc with hc | hc <;> simp [hc])
  refine ⟨?_, hf⟩
  cases b with
  | false => rfl
  | true =>
    exfalso
    have h1 := h
    simp only [selfExport, selfReq] at h1
    split at h1
    · simp at h1
    · exact absurd (release_map_files h1).1 (by simp)
    · split at h1
      · simp at h1
      · rename_i r hr
        have hb := (release_map_files h1).1
        rw [show r = (r.1, r.2) from rfl, hb] at hr
        simp only [certify] at hr
        split at hr
        · simp at hr
        · simp at hr
        · rename_i x s' hs
          simp only [selfCert] at hs
          rcases hc with hc | hc
          · simp [hc] at hs
          · simp only [hc, Bool.false_and] at hs
            split at hs
            · simp only [Bool.false_eq_true, if_false] at hs
              exact absurd (release_map_files hs).1 (by simp)
            · simp at hs

example : (selfExport { sign := false } none none { keyFile := .whole 9, certFile := .whole 9 }).map (·.1) = some false := by decide

/-- False in general: where a pair of files was in use, a call that cannot open the certificate's file says `false` and leaves the new key
beside the old certificate; one that cannot write the key leaves a new certificate beside what was written of the key. -/
theorem failed_export_breaks_pair (e : Env) (pkey x509 : Option Nat) (st : St) (k : Nat) (hk : k < st.next)
    (_hkey : st.keyFile = .whole k) (hcert : st.certFile = .whole k)
    (hgood : e.newKey ∧ e.ctx ∧ e.init ∧ e.keygen ∧ e.newCert ∧ e.sign ∧ e.openKey)
    (hbad : (e.writeKey ∧ e.openCert = false) ∨ (e.writeKey = false ∧ e.openCert ∧ e.writeCert)) :
    ∃ s, selfExport e pkey x509 st = some (false, s) ∧ ¬ Match s ∧
      s.keyFile = (if e.writeKey then .whole st.next else .cut) ∧
      s.certFile = (if e.openCert then .whole st.next else .whole k) := by
  obtain ⟨h1, h2, h3, h4, h5, h6, h7⟩ := hgood
  rcases hbad with ⟨b1, b2⟩ | ⟨b1, b2, b3⟩
  · refine ⟨_, by simp [selfExport, selfReq, generate, keygen, alloc, release, certify, selfCert, createSelf, put, *]; rfl, ?_⟩
    refine ⟨?_, by simp [b1], by simp [b2]⟩
    rintro ⟨j, hj, hj'⟩
    simp at hj hj'
    omega
  · refine ⟨_, by simp [selfExport, selfReq, generate, keygen, alloc, release, certify, selfCert, createSelf, put, *]; rfl, ?_⟩
    refine ⟨?_, by simp [b1], by simp [b2]⟩
    rintro ⟨j, hj, _⟩
    simp at hj

/-- Such a case. -/
def before : St := { next := 4, keyFile := .whole 3, certFile := .whole 3 }

example : 3 < before.next := by decide
example : (selfExport { openCert := false } none none before).map (fun r => (r.1, r.2.keyFile, r.2.certFile)) =
    some (false, .whole 4, .whole 3) := by decide

/-- The key and the certificate that are handed to `x509_self_export` are never written: a file that did not belong to an existing key
does not belong to it afterwards. -/
theorem export_ignores_given (e : Env) (k : Nat) (x509 : Option Nat) (st s : St) (b : Bool) (hk : k < st.next)
    (h : selfExport e (some k) x509 st = some (b, s)) :
    (st.keyFile ≠ .whole k → s.keyFile ≠ .whole k) ∧ (st.certFile ≠ .whole k → s.certFile ≠ .whole k) := by
  obtain ⟨-, -, h3, h4⟩ := selfReq_files h
  refine ⟨fun hn => ?_, fun hn => ?_⟩
  · rcases h3 with h | h | h <;> rw [h]
    · exact hn
    · simp
    · simp only [ne_eq, File.whole.injEq]; omega
  · rcases h4 with h | h | h <;> rw [h]
    · exact hn
    · simp
    · simp only [ne_eq, File.whole.injEq]; omega

example : (selfExport {} (some 2) (some 3) { next := 4, live := [2, 3] }).map (fun r => (r.1, r.2.keyFile)) =
    some (true, .whole 4) := by decide

/-! ## C237: objects are freed once -/

/-- `_partial`: whatever else fails, `x509_self_export` frees each object once and leaves those of others alone, provided the key object
could be made and `EVP_PKEY_keygen` works or does not free it.  Missing: the two cases below. -/
theorem export_frees_once_partial (e : Env) (pkey x509 : Option Nat) (st : St) (hn : e.newKey = true)
    (hk : e.keygen = true ∨ e.frees = false) :
    (selfExport e pkey x509 st).map (fun r => r.2.live) = some st.live := by
  rcases hk with hk | hk
  · cases h1 : e.ctx <;> cases h2 : e.init <;> cases h3 : e.newCert <;> cases h4 : e.sign <;>
      simp [selfExport, selfReq, generate, keygen, alloc, release, certify, selfCert, createSelf, *]
  · cases h0 : e.keygen <;> cases h1 : e.ctx <;> cases h2 : e.init <;> cases h3 : e.newCert <;> cases h4 : e.sign <;>
      simp [selfExport, selfReq, generate, keygen, alloc, release, certify, selfCert, createSelf, *]

/-- `_partial`: `rsa_pkey` likewise; it returns a key exactly if everything worked, and that key exists and is the only new object. -/
theorem rsa_pkey_owns_partial (e : Env) (st : St) (hk : e.keygen = true ∨ e.frees = false) :
    (rsaPkey e st).map (fun r => (r.1, r.2.live, r.2.keyFile, r.2.certFile)) =
      some (if e.newKey ∧ e.ctx ∧ e.init ∧ e.keygen then (some st.next, st.next :: st.live, st.keyFile, st.certFile)
        else (none, st.live, st.keyFile, st.certFile)) := by
  rcases hk with hk | hk
  · cases h0 : e.newKey <;> cases h1 : e.ctx <;> cases h2 : e.init <;>
      simp [rsaPkey, generate, keygen, alloc, release, *]
  · cases h0 : e.newKey <;> cases h3 : e.keygen <;> cases h1 : e.ctx <;> cases h2 : e.init <;>
      simp [rsaPkey, generate, keygen, alloc, release, *]

example : (rsaPkey {} {}).map (fun r => (r.1, r.2.live)) = some (some 0, [0]) := by decide
example : (rsaPkey { init := false } {}).map (fun r => (r.1, r.2.live)) = some (none, []) := by decide

/-- False in general: where `EVP_PKEY_keygen` frees the key when it fails, the key is freed twice, by `x509_self_export` and by
`rsa_pkey`. -/
theorem keygen_failure_frees_twice (e : Env) (pkey x509 : Option Nat) (st : St) (hs : ∀ x ∈ st.live, x < st.next)
    (h : e.newKey ∧ e.ctx ∧ e.init ∧ e.keygen = false ∧ e.frees) :
    selfExport e pkey x509 st = none ∧ rsaPkey e st = none := by
  obtain ⟨h1, h2, h3, h4, h5⟩ := h
  have hn : st.next ∉ st.live := fun hm => absurd (hs _ hm) (Nat.lt_irrefl _)
  constructor <;>
    simp [selfExport, selfReq, rsaPkey, generate, keygen, alloc, release, *]

example : let st : St := { next := 3, live := [2, 0] }
    ∀ x ∈ st.live, x < st.next := by decide

/-- False in general: when no key object can be made at first but the one inside `EVP_PKEY_keygen` can, the new key stays for ever, and
the call says `false`. -/
theorem lost_key_stays (e : Env) (pkey x509 : Option Nat) (st : St)
    (h : e.newKey = false ∧ e.ctx ∧ e.init ∧ e.newKeyInside ∧ e.keygen) :
    (selfExport e pkey x509 st).map (fun r => (r.1, r.2.live)) = some (false, (st.next + 1) :: st.live) := by
  obtain ⟨h1, h2, h3, h4, h5⟩ := h
  cases h6 : e.newCert <;>
    simp [selfExport, selfReq, generate, keygen, alloc, release, certify, selfCert, *]

end Verif.Tls.Keys
