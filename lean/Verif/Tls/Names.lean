import Mathlib.Data.List.Basic

/-!
# The files of the certificate and the key (`src/async_tls.c` 366-393, 446-459, 597-607, 689-789), C142-C144

The names of the files with the certificate, the request and the private key are put together once from a directory and the name of
the host.  `use_certificate(path)` chooses the directory, `use_certificate(NULL)` and `use_secure_client()` create a self-signed
certificate unless a marker file exists.  The model has the static buffers of the names, with their sizes, and the files which
exist.  `P` is `PATH_MAX`, `M` is `MAXHOSTNAMELEN`; `h` is the name of the host (`events_hostname`, 811-821).
-/

namespace Verif.Tls.Names

abbrev Path := List Char

/-- `snprintf(buf, n, "%s…", …)`: what is in the buffer afterwards. -/
def fmt (n : Nat) (s : Path) : Path := s.take (n - 1)

/-- What a file contains: something of the user, or what the library wrote. -/
inductive File where
  | user
  | selfKey
  | selfCert
  | marker
  deriving DecidableEq, Repr

/-- The same file has the names `x` and `./x`. -/
def norm : Path → Path
  | '.' :: '/' :: l => norm l
  | l => l

/-- The static buffers (src/async_tls.c:40-45) and the files. -/
structure St where
  dir : Path
  cert : Path
  csr : Path
  key : Path
  touch : Path
  fs : Path → Option File

/-- The sizes of the buffers and the name of the host. -/
structure Cfg where
  P : Nat
  M : Nat
  h : Path

/-- A process starts. -/
def fresh (fs : Path → Option File) : St := ⟨[], [], [], [], [], fs⟩

def crt : Path := ".crt".toList
def csrE : Path := ".csr".toList
def keyE : Path := ".key".toList
def loc : Path := ".local".toList
def up : Path := "../".toList
def here : Path := "./".toList

/-- `fopen(…, "w")`. -/
def write (st : St) (p : Path) (f : File) : St := { st with fs := fun x => if x = norm p then some f else st.fs x }

/-- `fs_exists`. -/
def exists' (st : St) (p : Path) : Bool := (st.fs (norm p)).isSome

/-- `cert_names_setup` (src/async_tls.c:689-698): none of the four results is empty, so all are written. -/
def namesSetup (c : Cfg) (st : St) : St :=
  if st.cert = [] then
    { st with
      cert := fmt (c.P + c.M + 4) (c.h ++ crt)
      csr := fmt (c.P + c.M + 4) (c.h ++ csrE)
      key := fmt (c.P + c.M + 4) (c.h ++ keyE)
      touch := fmt (c.P + c.M + 6) (c.h ++ loc) }
  else st

/-- `cert_file`, `csr_file` and `pkey_file` (src/async_tls.c:719-724, 755-767). -/
def certFile (c : Cfg) (st : St) : St × Path :=
  let st := if st.cert = [] then namesSetup c st else st
  (st, st.cert)

def csrFile (c : Cfg) (st : St) : St × Path :=
  let st := if st.csr = [] then namesSetup c st else st
  (st, st.csr)

def pkeyFile (c : Cfg) (st : St) : St × Path :=
  let st := if st.key = [] then namesSetup c st else st
  (st, st.key)

/-- `default_cert_path` (src/async_tls.c:726-734); `none` is the null pointer. -/
def certPath (c : Cfg) (st : St) (path : Option Path) : St × Path :=
  let st := if st.dir = [] then { st with dir := fmt c.P (path.getD up) } else st
  (st, st.dir)

/-- `default_cert_file` (src/async_tls.c:736-753): if the directory comes out empty, `snprintf` returns 0 and the others are not
written. -/
def certFileDefault (c : Cfg) (st : St) (path : Option Path) : St × Path :=
  let st :=
    if st.dir = [] then
      let d := path.getD up
      if d = [] then st
      else
        let dir := fmt c.P d
        { st with
          dir := dir
          cert := fmt (c.P + c.M + 4) (dir ++ c.h ++ crt)
          csr := fmt (c.P + c.M + 4) (dir ++ c.h ++ csrE)
          key := fmt (c.P + c.M + 4) (dir ++ c.h ++ keyE) }
    else st
  match path with
  | none =>
    let st := { st with touch := fmt (c.P + c.M + 6) (c.h ++ loc) }
    (st, st.touch)
  | some _ => (st, st.cert)

/-- `x509_self_export` (src/async_tls.c:597-601, 446-459, 366-393): a pool thread makes a key and a certificate and writes them; `ok`
tells whether that works (otherwise nothing is written in this model). -/
def selfExport (c : Cfg) (st : St) (ok : Bool) : St :=
  if ok then
    let r := pkeyFile c st
    let st := write r.1 r.2 .selfKey
    let r := certFile c st
    write r.1 r.2 .selfCert
  else st

/-- `use_certificate` (src/async_tls.c:780-789). -/
def useCertificate (c : Cfg) (st : St) (path : Option Path) (ok : Bool) : St :=
  match path with
  | none =>
    let r := certFileDefault c st none
    if exists' r.1 r.2 then r.1
    else
      let st := selfExport c r.1 ok
      if ok then write st st.touch .marker else st
  | some p => (certFileDefault c st (some p)).1

/-- `use_secure_client` (src/async_tls.c:771-777), once the name of the marker is set. -/
def clientRest (c : Cfg) (st : St) (ok : Bool) : St :=
  if exists' st st.touch then st
  else
    let st := (certFileDefault c st (some here)).1
    let st := selfExport c st ok
    if ok then write st st.touch .marker else st

/-- `use_secure_client` (src/async_tls.c:769-778). -/
def useClient (c : Cfg) (st : St) (ok : Bool) : St :=
  clientRest c { st with touch := fmt (c.P + c.M + 6) (here ++ c.h ++ loc) } ok

/-- The calls of a program. -/
inductive Op where
  | cert
  | csr
  | key
  | path (p : Option Path)
  | use (p : Option Path) (ok : Bool)
  | client (ok : Bool)
  | selfExport (ok : Bool)

def step (c : Cfg) (st : St) : Op → St
  | .cert => (certFile c st).1
  | .csr => (csrFile c st).1
  | .key => (pkeyFile c st).1
  | .path p => (certPath c st p).1
  | .use p ok => useCertificate c st p ok
  | .client ok => useClient c st ok
  | .selfExport ok => selfExport c st ok

/-- What a program can reach. -/
inductive Reach (c : Cfg) : St → Prop where
  | fresh (fs) : Reach c (fresh fs)
  | step {st} (op : Op) : Reach c st → Reach c (step c st op)

/-- A host name that fits, and buffers as they are. -/
structure Cfg.Ok (c : Cfg) : Prop where
  h0 : c.h ≠ []
  hM : c.h.length < c.M
  hP : 4 ≤ c.P

/-! ## Lemmas -/

theorem fmt_fit {n : Nat} {s : Path} (h : s.length < n) : fmt n s = s := by
  unfold fmt
  exact List.take_of_length_le (by omega)

theorem fmt_len {n : Nat} (s : Path) (h : 1 ≤ n) : (fmt n s).length < n := by
  unfold fmt
  rw [List.length_take]
  omega

theorem lens : crt.length = 4 ∧ csrE.length = 4 ∧ keyE.length = 4 ∧ loc.length = 6 ∧ up.length = 3 ∧ here.length = 2 := by decide

/-- The three names are empty, or belong to the same directory: none or the chosen one. -/
def Together (c : Cfg) (st : St) : Prop :=
  st.dir.length < c.P ∧
  ((st.cert = [] ∧ st.csr = [] ∧ st.key = []) ∨
   ∃ p, (p = [] ∨ p = st.dir) ∧ st.cert = p ++ c.h ++ crt ∧ st.csr = p ++ c.h ++ csrE ∧ st.key = p ++ c.h ++ keyE)

theorem cert_ne (p h e : Path) (he : e ≠ []) : p ++ h ++ e ≠ [] := by
  simp [he]

theorem crt_ne : crt ≠ [] := by decide
theorem csr_ne : csrE ≠ [] := by decide
theorem key_ne : keyE ≠ [] := by decide

theorem together_iff {c : Cfg} {st : St} (h : Together c st) : (st.cert = [] ↔ st.csr = []) ∧ (st.cert = [] ↔ st.key = []) := by
  rcases h.2 with ⟨a, b, d⟩ | ⟨p, _, a, b, d⟩
  · simp [a, b, d]
  · rw [a, b, d]
    simp [crt_ne, csr_ne, key_ne]

theorem namesSetup_together {c : Cfg} (hc : c.Ok) {st : St} (h : Together c st) :
    Together c (namesSetup c st) ∧ (namesSetup c st).cert ≠ [] ∧ (namesSetup c st).fs = st.fs ∧ (namesSetup c st).dir = st.dir := by
  obtain ⟨l1, l2, l3, l4, _, _⟩ := lens
  have hM := hc.hM
  unfold namesSetup
  split
  · refine ⟨⟨h.1, Or.inr ⟨[], Or.inl rfl, ?_, ?_, ?_⟩⟩, ?_, rfl, rfl⟩
    · exact fmt_fit (by rw [List.length_append]; omega)
    · exact fmt_fit (by rw [List.length_append]; omega)
    · exact fmt_fit (by rw [List.length_append]; omega)
    · show fmt _ _ ≠ []
      rw [fmt_fit (by rw [List.length_append]; omega)]
      simp [crt_ne]
  · rename_i hne
    exact ⟨h, hne, rfl, rfl⟩

theorem certFile_spec {c : Cfg} (hc : c.Ok) {st : St} (h : Together c st) :
    Together c (certFile c st).1 ∧ (certFile c st).1.cert ≠ [] ∧ (certFile c st).2 = (certFile c st).1.cert ∧
    (certFile c st).1.fs = st.fs ∧ (certFile c st).1.dir = st.dir ∧ (st.cert ≠ [] → (certFile c st).1 = st) := by
  unfold certFile
  split
  · rename_i he
    have := namesSetup_together hc h
    exact ⟨this.1, this.2.1, rfl, this.2.2.1, this.2.2.2, fun hn => absurd he hn⟩
  · rename_i hne
    exact ⟨h, hne, rfl, rfl, rfl, fun _ => rfl⟩

theorem csrFile_spec {c : Cfg} (hc : c.Ok) {st : St} (h : Together c st) :
    Together c (csrFile c st).1 ∧ (csrFile c st).1.cert ≠ [] ∧ (csrFile c st).2 = (csrFile c st).1.csr ∧
    (csrFile c st).1.fs = st.fs ∧ (csrFile c st).1.dir = st.dir ∧ (st.cert ≠ [] → (csrFile c st).1 = st) := by
  have hi := (together_iff h).1
  unfold csrFile
  split
  · rename_i he
    have := namesSetup_together hc h
    exact ⟨this.1, this.2.1, rfl, this.2.2.1, this.2.2.2, fun hn => absurd (hi.2 he) hn⟩
  · rename_i hne
    exact ⟨h, fun q => hne (hi.1 q), rfl, rfl, rfl, fun _ => rfl⟩

theorem pkeyFile_spec {c : Cfg} (hc : c.Ok) {st : St} (h : Together c st) :
    Together c (pkeyFile c st).1 ∧ (pkeyFile c st).1.cert ≠ [] ∧ (pkeyFile c st).2 = (pkeyFile c st).1.key ∧
    (pkeyFile c st).1.fs = st.fs ∧ (pkeyFile c st).1.dir = st.dir ∧ (st.cert ≠ [] → (pkeyFile c st).1 = st) := by
  have hi := (together_iff h).2
  unfold pkeyFile
  split
  · rename_i he
    have := namesSetup_together hc h
    exact ⟨this.1, this.2.1, rfl, this.2.2.1, this.2.2.2, fun hn => absurd (hi.2 he) hn⟩
  · rename_i hne
    exact ⟨h, fun q => hne (hi.1 q), rfl, rfl, rfl, fun _ => rfl⟩

theorem write_together {c : Cfg} {st : St} (h : Together c st) (p : Path) (f : File) : Together c (write st p f) := h

theorem touch_together {c : Cfg} {st : St} (h : Together c st) (t : Path) : Together c { st with touch := t } := h

theorem fmt_ne {n : Nat} {s : Path} (hs : s ≠ []) (hn : 2 ≤ n) : fmt n s ≠ [] := by
  unfold fmt
  cases s with
  | nil => exact absurd rfl hs
  | cons a s =>
    obtain ⟨m, rfl⟩ : ∃ m, n = m + 2 := ⟨n - 2, by omega⟩
    simp

/-- What the names are after a directory was chosen. -/
theorem certFileDefault_set {c : Cfg} (hc : c.Ok) {st : St} (hd : st.dir = []) {path : Option Path} (hp : path.getD up ≠ []) :
    (certFileDefault c st path).1.dir = fmt c.P (path.getD up) ∧
    (certFileDefault c st path).1.cert = fmt c.P (path.getD up) ++ c.h ++ crt ∧
    (certFileDefault c st path).1.csr = fmt c.P (path.getD up) ++ c.h ++ csrE ∧
    (certFileDefault c st path).1.key = fmt c.P (path.getD up) ++ c.h ++ keyE ∧ (certFileDefault c st path).1.fs = st.fs := by
  obtain ⟨l1, l2, l3, l4, _, _⟩ := lens
  have hM := hc.hM
  have hP := hc.hP
  have hl := fmt_len (n := c.P) (path.getD up) (by omega)
  have f1 : fmt (c.P + c.M + 4) (fmt c.P (path.getD up) ++ c.h ++ crt) = fmt c.P (path.getD up) ++ c.h ++ crt :=
    fmt_fit (by simp only [List.length_append]; omega)
  have f2 : fmt (c.P + c.M + 4) (fmt c.P (path.getD up) ++ c.h ++ csrE) = fmt c.P (path.getD up) ++ c.h ++ csrE :=
    fmt_fit (by simp only [List.length_append]; omega)
  have f3 : fmt (c.P + c.M + 4) (fmt c.P (path.getD up) ++ c.h ++ keyE) = fmt c.P (path.getD up) ++ c.h ++ keyE :=
    fmt_fit (by simp only [List.length_append]; omega)
  unfold certFileDefault
  simp only [if_pos hd, if_neg hp, f1, f2, f3]
  cases path <;> exact ⟨rfl, rfl, rfl, rfl, rfl⟩

theorem certFileDefault_same {c : Cfg} {st : St} {path : Option Path} (h : st.dir ≠ [] ∨ path.getD up = []) :
    (certFileDefault c st path).1.dir = st.dir ∧ (certFileDefault c st path).1.cert = st.cert ∧
    (certFileDefault c st path).1.csr = st.csr ∧ (certFileDefault c st path).1.key = st.key ∧
    (certFileDefault c st path).1.fs = st.fs := by
  unfold certFileDefault
  by_cases hd : st.dir = []
  · have hp : path.getD up = [] := h.resolve_left (fun q => q hd)
    simp only [if_pos hd, if_pos hp]
    cases path <;> exact ⟨rfl, rfl, rfl, rfl, rfl⟩
  · simp only [if_neg hd]
    cases path <;> exact ⟨rfl, rfl, rfl, rfl, rfl⟩

theorem certFileDefault_together {c : Cfg} (hc : c.Ok) {st : St} (h : Together c st) (path : Option Path) :
    Together c (certFileDefault c st path).1 := by
  have hP := hc.hP
  by_cases hs : st.dir ≠ [] ∨ path.getD up = []
  · obtain ⟨a, b, d, e, _⟩ := certFileDefault_same (c := c) hs
    unfold Together
    rw [a, b, d, e]
    exact h
  · rw [not_or, not_not] at hs
    obtain ⟨a, b, d, e, _⟩ := certFileDefault_set hc hs.1 hs.2
    unfold Together
    rw [a, b, d, e]
    exact ⟨fmt_len _ (by omega), Or.inr ⟨_, Or.inr rfl, rfl, rfl, rfl⟩⟩

theorem selfExport_together {c : Cfg} (hc : c.Ok) {st : St} (h : Together c st) (ok : Bool) : Together c (selfExport c st ok) := by
  unfold selfExport
  split
  · have h1 := (pkeyFile_spec hc h).1
    have h2 := write_together h1 (pkeyFile c st).2 .selfKey
    exact write_together (certFile_spec hc h2).1 _ _
  · exact h

theorem step_together {c : Cfg} (hc : c.Ok) {st : St} (h : Together c st) (op : Op) : Together c (step c st op) := by
  have hP := hc.hP
  cases op with
  | cert => exact (certFile_spec hc h).1
  | csr => exact (csrFile_spec hc h).1
  | key => exact (pkeyFile_spec hc h).1
  | path p =>
    show Together c (certPath c st p).1
    unfold certPath
    by_cases hd : st.dir = []
    · simp only [if_pos hd]
      refine ⟨fmt_len _ (by omega), ?_⟩
      rcases h.2 with q | ⟨p', hp', q⟩
      · exact Or.inl q
      · refine Or.inr ⟨p', Or.inl ?_, q⟩
        rcases hp' with q | q
        · exact q
        · rw [q, hd]
    · simp only [if_neg hd]
      exact h
  | use p ok =>
    show Together c (useCertificate c st p ok)
    unfold useCertificate
    cases p with
    | some p => exact certFileDefault_together hc h _
    | none =>
      dsimp only
      have h1 := certFileDefault_together hc h none
      split
      · exact h1
      · have h2 := selfExport_together hc h1 ok
        split
        · exact write_together h2 _ _
        · exact h2
  | client ok =>
    show Together c (useClient c st ok)
    unfold useClient clientRest
    dsimp only
    have h0 := touch_together h (fmt (c.P + c.M + 6) (here ++ c.h ++ loc))
    split
    · exact h0
    · have h2 := selfExport_together hc (certFileDefault_together hc h0 (some here)) ok
      split
      · exact write_together h2 _ _
      · exact h2
  | selfExport ok => exact selfExport_together hc h ok

theorem reach_together {c : Cfg} (hc : c.Ok) {st : St} (h : Reach c st) : Together c st := by
  induction h with
  | fresh fs => exact ⟨by have := hc.hP; show 0 < c.P; omega, Or.inl ⟨rfl, rfl, rfl⟩⟩
  | step op _ ih => exact step_together hc ih op

/-! ## C142: the names belong together -/

/-- C142: whatever was called before, `cert_file()`, `csr_file()` and `pkey_file()` (called one after the other) return the host name
with `.crt`, `.csr` and `.key` in one and the same directory, which is none or the one chosen; nothing is cut off, so the three are
different files. -/
theorem names_belong_together {c : Cfg} (hc : c.Ok) {st : St} (hr : Reach c st) :
    ∃ p, (p = [] ∨ p = st.dir) ∧
      (certFile c st).2 = p ++ c.h ++ crt ∧
      (csrFile c (certFile c st).1).2 = p ++ c.h ++ csrE ∧
      (pkeyFile c (csrFile c (certFile c st).1).1).2 = p ++ c.h ++ keyE := by
  have h := reach_together hc hr
  obtain ⟨h1, h2, h3, _, h4, _⟩ := certFile_spec hc h
  obtain ⟨_, _, g3, _, _, g6⟩ := csrFile_spec hc h1
  have g6 := g6 h2
  rw [g6] at g3 ⊢
  obtain ⟨_, _, k3, _, _, k6⟩ := pkeyFile_spec hc h1
  have k6 := k6 h2
  rw [k6] at k3
  rcases h1.2 with ⟨q, _⟩ | ⟨p, hp, q1, q2, q3⟩
  · exact absurd q h2
  · rw [h4] at hp
    exact ⟨p, hp, by rw [h3, q1], by rw [g3, q2], by rw [k3, q3]⟩

/-- Different endings make different files. -/
theorem endings_differ (p h : Path) : p ++ h ++ crt ≠ p ++ h ++ csrE ∧ p ++ h ++ crt ≠ p ++ h ++ keyE ∧ p ++ h ++ csrE ≠ p ++ h ++ keyE := by
  refine ⟨?_, ?_, ?_⟩ <;>
  · intro e
    exact absurd (List.append_cancel_left e) (by decide)

/-! ## C143: the directory -/

/-- C143, partial: if no directory was chosen before, `use_certificate(path)` makes the files of this directory be used, also if the
names were asked for already.  Missing: a later call, and a call after `default_cert_path`. -/
theorem use_certificate_first_partial {c : Cfg} (hc : c.Ok) {st : St} (hd : st.dir = []) {p : Path}
    (hp : p ≠ []) (hl : p.length < c.P) (ok : Bool) :
    (certFile c (useCertificate c st (some p) ok)).2 = p ++ c.h ++ crt ∧
    (pkeyFile c (useCertificate c st (some p) ok)).2 = p ++ c.h ++ keyE := by
  have hf : fmt c.P p = p := fmt_fit hl
  obtain ⟨a, b, d, e, _⟩ := certFileDefault_set (st := st) hc hd (path := some p) hp
  rw [Option.getD_some, hf] at b e
  unfold useCertificate certFile pkeyFile
  dsimp only
  rw [b, e, if_neg (cert_ne _ _ _ crt_ne), if_neg (cert_ne _ _ _ key_ne)]
  exact ⟨b, e⟩

/-- C143 is false: a second call of `use_certificate` with another directory has no effect. -/
theorem use_certificate_again_ignored {c : Cfg} (hc : c.Ok) (fs : Path → Option File) {p q : Path}
    (hp : p ≠ []) (hl : p.length < c.P) (ok ok' : Bool) (hpq : p ≠ q) :
    (certFile c (useCertificate c (useCertificate c (fresh fs) (some p) ok) (some q) ok')).2 = p ++ c.h ++ crt ∧
    (certFile c (useCertificate c (useCertificate c (fresh fs) (some p) ok) (some q) ok')).2 ≠ q ++ c.h ++ crt := by
  have hP := hc.hP
  have hf : fmt c.P p = p := fmt_fit hl
  obtain ⟨a, b, _, _, _⟩ := certFileDefault_set (st := fresh fs) hc rfl (path := some p) hp
  rw [Option.getD_some, hf] at a b
  obtain ⟨a', b', _, _, _⟩ := certFileDefault_same (c := c) (st := (certFileDefault c (fresh fs) (some p)).1) (path := some q)
    (Or.inl (by rw [a]; exact hp))
  have h1 : (certFile c (useCertificate c (useCertificate c (fresh fs) (some p) ok) (some q) ok')).2 = p ++ c.h ++ crt := by
    unfold useCertificate certFile
    dsimp only
    rw [b', b, if_neg (cert_ne _ _ _ crt_ne), b', b]
  refine ⟨h1, fun e => ?_⟩
  rw [h1] at e
  exact hpq (List.append_cancel_right (List.append_cancel_right e))

/-- C143 is false: after `default_cert_path(path)`, `use_certificate` with the same path does not choose the files of that directory:
those of the working directory are used. -/
theorem cert_path_detaches {c : Cfg} (hc : c.Ok) (fs : Path → Option File) {p : Path} (hp : p ≠ []) (ok : Bool) :
    (certFile c (useCertificate c (certPath c (fresh fs) (some p)).1 (some p) ok)).2 = c.h ++ crt := by
  have hP := hc.hP
  have hM := hc.hM
  obtain ⟨l1, _⟩ := lens
  obtain ⟨st, hst⟩ : ∃ st, (certPath c (fresh fs) (some p)).1 = st := ⟨_, rfl⟩
  have hd : st.dir ≠ [] := by
    rw [← hst]
    exact fmt_ne hp (by omega)
  have hcert : st.cert = [] := by rw [← hst]; rfl
  rw [hst]
  obtain ⟨_, b', _, _, _⟩ := certFileDefault_same (c := c) (st := st) (path := some p) (Or.inl hd)
  unfold useCertificate certFile
  dsimp only
  rw [b', if_pos hcert]
  unfold namesSetup
  rw [b', if_pos hcert]
  exact fmt_fit (by rw [List.length_append]; omega)

/-! ## C144: self-signed certificates -/

theorem exists_write (st : St) (p : Path) (f : File) : exists' (write st p f) p = true := by
  simp [exists', write]

theorem exists_write_mono {st : St} {q : Path} (h : exists' st q = true) (p : Path) (f : File) :
    exists' (write st p f) q = true := by
  unfold exists' write at *
  dsimp only
  split
  · rfl
  · exact h

/-- After a self-signed certificate was made, both files exist under the names in use. -/
theorem selfExport_made {c : Cfg} (hc : c.Ok) {st : St} (h : Together c st) :
    exists' (selfExport c st true) (selfExport c st true).cert = true ∧
    exists' (selfExport c st true) (selfExport c st true).key = true ∧ (selfExport c st true).cert ≠ [] ∧
    (selfExport c st true).touch = (pkeyFile c st).1.touch := by
  obtain ⟨a1, a2, a3, _, _, _⟩ := pkeyFile_spec hc h
  have h2 := write_together a1 (pkeyFile c st).2 .selfKey
  obtain ⟨b1, b2, b3, _, _, b6⟩ := certFile_spec hc h2
  have b6 := b6 a2
  have he : selfExport c st true = write (write (pkeyFile c st).1 (pkeyFile c st).2 .selfKey) (pkeyFile c st).1.cert .selfCert := by
    unfold selfExport
    rw [if_pos rfl]
    dsimp only
    rw [b3, b6]
    rfl
  rw [he]
  refine ⟨exists_write _ _ _, ?_, a2, rfl⟩
  have : (write (write (pkeyFile c st).1 (pkeyFile c st).2 .selfKey) (pkeyFile c st).1.cert .selfCert).key = (pkeyFile c st).2 := by
    rw [a3]; rfl
  rw [this]
  exact exists_write_mono (exists_write _ _ _) _ _

/-- C144, partial: if there is no marker file and making the certificate works, then after `use_certificate(NULL)` the files of the
certificate and of the key exist.  Missing: the case that the marker exists. -/
theorem self_signed_made_partial {c : Cfg} (hc : c.Ok) {st : St} (hr : Reach c st) (hm : exists' st (c.h ++ loc) = false) :
    exists' (useCertificate c st none true) (certFile c (useCertificate c st none true)).2 = true ∧
    exists' (useCertificate c st none true) (pkeyFile c (useCertificate c st none true)).2 = true := by
  have hM := hc.hM
  obtain ⟨_, _, _, l4, _, _⟩ := lens
  have h := reach_together hc hr
  have h1 := certFileDefault_together hc h none
  obtain ⟨r, hre⟩ : ∃ r, certFileDefault c st none = r := ⟨_, rfl⟩
  have hr2 : r.2 = c.h ++ loc ∧ r.1.fs = st.fs := by
    rw [← hre]
    refine ⟨?_, ?_⟩
    · unfold certFileDefault
      exact fmt_fit (by rw [List.length_append]; omega)
    · by_cases hs : st.dir ≠ [] ∨ (none : Option Path).getD up = []
      · exact (certFileDefault_same (c := c) hs).2.2.2.2
      · rw [not_or, not_not] at hs
        exact (certFileDefault_set hc hs.1 hs.2).2.2.2.2
  rw [hre] at h1
  have hex : exists' r.1 r.2 = false := by
    unfold exists' at hm ⊢
    rw [hr2.1, hr2.2]
    exact hm
  obtain ⟨m1, m2, m3, _⟩ := selfExport_made hc h1
  have hk : (selfExport c r.1 true).key ≠ [] := by
    have := (together_iff (selfExport_together hc h1 true)).2
    exact fun q => m3 (this.2 q)
  have heq : useCertificate c st none true = write (selfExport c r.1 true) (selfExport c r.1 true).touch .marker := by
    unfold useCertificate
    dsimp only
    rw [hre, hex]
    rfl
  rw [heq]
  unfold certFile pkeyFile
  have q1 : (write (selfExport c r.1 true) (selfExport c r.1 true).touch .marker).cert = (selfExport c r.1 true).cert := rfl
  have q2 : (write (selfExport c r.1 true) (selfExport c r.1 true).touch .marker).key = (selfExport c r.1 true).key := rfl
  dsimp only
  rw [q1, q2, if_neg m3, if_neg hk, q1, q2]
  exact ⟨exists_write_mono m1 _ _, exists_write_mono m2 _ _⟩

theorem norm_len (l : Path) : (norm l).length ≤ l.length := by
  fun_induction norm l with
  | case1 l ih => simp only [List.length_cons]; omega
  | case2 l => exact Nat.le_refl _

/-- C144 is false: the marker file of `use_secure_client()` is the one of `use_certificate(NULL)`, but the first makes the
certificate in the working directory and the second uses the one in the parent directory.  So in a process that runs after a client
in the same directory `use_certificate(NULL)` makes nothing, and its certificate does not exist. -/
theorem marker_without_certificate {c : Cfg} (hc : c.Ok) :
    let fs := (useClient c (fresh fun _ => none) true).fs
    let st := useCertificate c (fresh fs) none true
    (certFile c st).2 = up ++ c.h ++ crt ∧ exists' st (certFile c st).2 = false := by
  have hM := hc.hM
  have hP := hc.hP
  obtain ⟨l1, l2, l3, l4, l5, l6⟩ := lens
  have fh : fmt c.P here = here := fmt_fit (by omega)
  have fu : fmt c.P up = up := fmt_fit (by omega)
  -- the client
  obtain ⟨s0, hs0⟩ : ∃ s0 : St, { fresh (fun _ => none) with touch := fmt (c.P + c.M + 6) (here ++ c.h ++ loc) } = s0 := ⟨_, rfl⟩
  have ht0 : s0.touch = here ++ c.h ++ loc := by
    rw [← hs0]
    exact fmt_fit (by simp only [List.length_append]; omega)
  obtain ⟨a, b, _, e, f⟩ := certFileDefault_set (st := s0) hc (by rw [← hs0]; rfl) (path := some here) (by decide)
  rw [Option.getD_some, fh] at a b e
  obtain ⟨s1, hs1⟩ : ∃ s1, (certFileDefault c s0 (some here)).1 = s1 := ⟨_, rfl⟩
  have ht1 : s1.touch = here ++ c.h ++ loc := by
    rw [← hs1, ← ht0]
    unfold certFileDefault
    dsimp only
    split
    · split <;> rfl
    · rfl
  rw [hs1] at b e f
  have f0 : s1.fs = fun _ => none := by rw [f, ← hs0]; rfl
  have hx : selfExport c s1 true = write (write s1 s1.key .selfKey) s1.cert .selfCert := by
    unfold selfExport pkeyFile certFile
    dsimp only
    have n1 : s1.key ≠ [] := by rw [e]; exact cert_ne _ _ _ key_ne
    have n2 : (write s1 s1.key .selfKey).cert ≠ [] := by
      show s1.cert ≠ []
      rw [b]
      exact cert_ne _ _ _ crt_ne
    rw [if_pos rfl, if_neg n1, if_neg n2]
    rfl
  have hcl : useClient c (fresh fun _ => none) true = write (write (write s1 s1.key .selfKey) s1.cert .selfCert) s1.touch .marker := by
    have hno : exists' s0 s0.touch = false := by rw [← hs0]; simp [exists', fresh]
    unfold useClient
    rw [hs0]
    unfold clientRest
    dsimp only
    rw [hs1, hx, hno]
    rfl
  intro fs st
  have hfs : fs = (write (write (write s1 s1.key .selfKey) s1.cert .selfCert) s1.touch .marker).fs := by
    show (useClient c (fresh fun _ => none) true).fs = _
    rw [hcl]
  -- the server
  obtain ⟨a', b', _, _, f'⟩ := certFileDefault_set (st := fresh fs) hc rfl (path := none) (by decide)
  rw [Option.getD_none, fu] at a' b'
  have hr2 : (certFileDefault c (fresh fs) none).2 = c.h ++ loc := by
    unfold certFileDefault
    exact fmt_fit (by rw [List.length_append]; omega)
  have hex : exists' (certFileDefault c (fresh fs) none).1 (certFileDefault c (fresh fs) none).2 = true := by
    unfold exists'
    rw [hr2, f', show (fresh fs).fs = fs from rfl, hfs]
    have : norm s1.touch = norm (c.h ++ loc) := by
      rw [ht1]
      rfl
    unfold write
    dsimp only
    rw [this, if_pos rfl]
    rfl
  have hst : st = (certFileDefault c (fresh fs) none).1 := by
    show useCertificate c (fresh fs) none true = _
    unfold useCertificate
    dsimp only
    rw [if_pos hex]
  have hcert : st.cert = up ++ c.h ++ crt := by rw [hst]; exact b'
  have hcf : (certFile c st).2 = up ++ c.h ++ crt := by
    unfold certFile
    dsimp only
    rw [if_neg (by rw [hcert]; exact cert_ne _ _ _ crt_ne)]
    exact hcert
  refine ⟨hcf, ?_⟩
  rw [hcf]
  have hup : norm (up ++ c.h ++ crt) = up ++ c.h ++ crt := rfl
  have hlen : ∀ x : Path, x.length < (up ++ c.h ++ crt).length ∨ norm x = norm (x.drop 2) ∧ (x.drop 2).length < (up ++ c.h ++ crt).length →
      (up ++ c.h ++ crt) ≠ norm x := by
    intro x hx he
    have hl := congrArg List.length he
    rcases hx with hx | ⟨h1, h2⟩
    · have := norm_len x
      omega
    · rw [h1] at hl
      have := norm_len (x.drop 2)
      omega
  unfold exists'
  rw [hup, hst, f', show (fresh fs).fs = fs from rfl, hfs]
  unfold write
  dsimp only
  rw [if_neg, if_neg, if_neg, f0]
  · rfl
  · rw [e]
    exact hlen _ (Or.inr ⟨rfl, by simp [here, up, crt, keyE]⟩)
  · rw [b]
    exact hlen _ (Or.inr ⟨rfl, by simp [here, up, crt]⟩)
  · rw [ht1]
    exact hlen _ (Or.inr ⟨rfl, by simp [here, up, crt, loc]⟩)

/-- C144, partial: `use_certificate(path)` with a path writes no file, and neither call does if its marker file exists.  Missing: the
case without the marker. -/
theorem existing_files_kept_partial {c : Cfg} (hc : c.Ok) {st : St} :
    (∀ p ok, (useCertificate c st (some p) ok).fs = st.fs) ∧
    (exists' st (c.h ++ loc) = true → ∀ ok, (useCertificate c st none ok).fs = st.fs ∧ (useClient c st ok).fs = st.fs) := by
  have hM := hc.hM
  have hP := hc.hP
  obtain ⟨_, _, _, l4, _, l6⟩ := lens
  have hfs : ∀ path, (certFileDefault c st path).1.fs = st.fs := by
    intro path
    by_cases hs : st.dir ≠ [] ∨ path.getD up = []
    · exact (certFileDefault_same (c := c) hs).2.2.2.2
    · rw [not_or, not_not] at hs
      exact (certFileDefault_set hc hs.1 hs.2).2.2.2.2
  refine ⟨fun p ok => hfs (some p), fun hm ok => ⟨?_, ?_⟩⟩
  · have hr2 : (certFileDefault c st none).2 = c.h ++ loc := by
      unfold certFileDefault
      exact fmt_fit (by rw [List.length_append]; omega)
    unfold useCertificate
    dsimp only
    rw [if_pos]
    · exact hfs none
    · unfold exists' at hm ⊢
      rw [hr2, hfs]
      exact hm
  · unfold useClient clientRest
    dsimp only
    rw [if_pos]
    unfold exists' at hm ⊢
    dsimp only
    rw [fmt_fit (by simp only [List.length_append]; omega)]
    exact hm

/-- C144 is false: a program that chose a directory with its own certificate and key and then calls `use_secure_client()` (without
the marker file in the working directory) has its private key overwritten. -/
theorem own_key_overwritten {c : Cfg} (hc : c.Ok) {fs : Path → Option File} {p : Path} (hp : p ≠ []) (hl : p.length < c.P)
    (hk : fs (norm (p ++ c.h ++ keyE)) = some .user) (hm : fs (norm (c.h ++ loc)) = none) (ok : Bool) :
    let st := useClient c (useCertificate c (fresh fs) (some p) ok) true
    (pkeyFile c st).2 = p ++ c.h ++ keyE ∧ st.fs (norm (p ++ c.h ++ keyE)) ≠ fs (norm (p ++ c.h ++ keyE)) ∧
    st.fs (norm (p ++ c.h ++ keyE)) ≠ none := by
  have hM := hc.hM
  have hP := hc.hP
  obtain ⟨_, _, _, l4, _, l6⟩ := lens
  have hf : fmt c.P p = p := fmt_fit hl
  obtain ⟨a, b, _, e, f⟩ := certFileDefault_set (st := fresh fs) hc rfl (path := some p) hp
  rw [Option.getD_some, hf] at a b e
  obtain ⟨s0, hs0⟩ : ∃ s0 : St, { useCertificate c (fresh fs) (some p) ok with
    touch := fmt (c.P + c.M + 6) (here ++ c.h ++ loc) } = s0 := ⟨_, rfl⟩
  have d0 : s0.dir = p := by rw [← hs0]; exact a
  have c0 : s0.cert = p ++ c.h ++ crt := by rw [← hs0]; exact b
  have k0 : s0.key = p ++ c.h ++ keyE := by rw [← hs0]; exact e
  have f0 : s0.fs = fs := by rw [← hs0]; exact f
  have t0 : s0.touch = here ++ c.h ++ loc := by
    rw [← hs0]
    exact fmt_fit (by simp only [List.length_append]; omega)
  obtain ⟨a', b', _, e', f'⟩ := certFileDefault_same (c := c) (st := s0) (path := some here) (Or.inl (by rw [d0]; exact hp))
  obtain ⟨s1, hs1⟩ : ∃ s1, (certFileDefault c s0 (some here)).1 = s1 := ⟨_, rfl⟩
  rw [hs1, c0] at b'
  rw [hs1, k0] at e'
  rw [hs1, f0] at f'
  have hx : selfExport c s1 true = write (write s1 s1.key .selfKey) s1.cert .selfCert := by
    unfold selfExport pkeyFile certFile
    dsimp only
    have n1 : s1.key ≠ [] := by rw [e']; exact cert_ne _ _ _ key_ne
    have n2 : (write s1 s1.key .selfKey).cert ≠ [] := by
      show s1.cert ≠ []
      rw [b']
      exact cert_ne _ _ _ crt_ne
    rw [if_pos rfl, if_neg n1, if_neg n2]
    rfl
  have hcl : useClient c (useCertificate c (fresh fs) (some p) ok) true =
      write (write (write s1 s1.key .selfKey) s1.cert .selfCert) s1.touch .marker := by
    have hno : exists' s0 s0.touch = false := by
      unfold exists'
      rw [f0, t0, show norm (here ++ c.h ++ loc) = norm (c.h ++ loc) from rfl, hm]
      rfl
    unfold useClient
    rw [hs0]
    unfold clientRest
    dsimp only
    rw [hs1, hx, hno]
    rfl
  intro st
  have hst : st = write (write (write s1 s1.key .selfKey) s1.cert .selfCert) s1.touch .marker := hcl
  have hkey : st.key = p ++ c.h ++ keyE := by rw [hst]; exact e'
  have hval : ∀ x, x = norm (p ++ c.h ++ keyE) → st.fs x ≠ some .user ∧ st.fs x ≠ none := by
    intro x hx
    rw [hst]
    unfold write
    dsimp only
    rw [e', ← hx]
    by_cases q1 : x = norm s1.touch
    · rw [if_pos q1]; exact ⟨by simp, by simp⟩
    · rw [if_neg q1]
      by_cases q2 : x = norm s1.cert
      · rw [if_pos q2]; exact ⟨by simp, by simp⟩
      · rw [if_neg q2, if_pos rfl]; exact ⟨by simp, by simp⟩
  rw [hk]
  refine ⟨?_, hval _ rfl⟩
  unfold pkeyFile
  dsimp only
  rw [if_neg (by rw [hkey]; exact cert_ne _ _ _ key_ne)]
  exact hkey

/-! ## Examples -/

def web : Cfg := ⟨4096, 64, "web".toList⟩

theorem web_ok : web.Ok := ⟨by decide, by decide, by decide⟩

/-- The names after `use_certificate("/etc/ssl/")`. -/
example : (pkeyFile web (useCertificate web (fresh fun _ => none) (some "/etc/ssl/".toList) false)).2 = "/etc/ssl/web.key".toList := by
  decide

/-- The hypotheses of `own_key_overwritten` are met. -/
example : ∃ fs : Path → Option File, fs (norm ("/etc/ssl/".toList ++ web.h ++ keyE)) = some .user ∧ fs (norm (web.h ++ loc)) = none :=
  ⟨fun x => if x = "/etc/ssl/web.key".toList then some .user else none, by decide, by decide⟩

example : exists' (fresh fun _ => none) (web.h ++ loc) = false := by decide

end Verif.Tls.Names
