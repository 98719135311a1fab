import Verif.Proc.ExecProps

/-!
# Program and arguments of a process started on Windows (`src/os_windows.c` 710-748, 807-818), C227

`exec` makes a file name and a command line for `CreateProcessA`; the new process takes its arguments from the command line.
-/

namespace Verif.Win.CmdLine
open Verif Verif.Str
open Verif.Proc (comma infix_single no_occ split_cons split_join)

def dotExe : Bytes := [46, 101, 120, 101]
def dotBat : Bytes := [46, 98, 97, 116]
def space : Bytes := [32]

/-- The file name, src/os_windows.c:808-809: `snprintf` into the 260 bytes of `os_exec_command`. -/
def fileName (command : Bytes) : Res Bytes := do
  let bat ← strHas (cstr command) (cstr dotBat)
  let exe ← (if !bat then strHas (cstr command) (cstr dotExe) else .ok true)
  .ok ((command ++ (if !bat && !exe then dotExe else [])).take 259)

/-- `exec`, src/os_windows.c:807-818: file name and command line.  A missing replacement (no comma in it) cannot happen: a
comma has just been put in. -/
def exec (command : Bytes) (args : Option Bytes) : Res (Bytes × Bytes) := do
  let file ← fileName command
  let o ← strCatEx (match args with
    | none => [cstr file, cstr comma]
    | some a => [cstr file, cstr comma, cstr a])
  match o with
  | none => .ub
  | some b => do
    let s ← strAt b 0
    let has ← strHas (cstr s) (cstr comma)
    if has then do
      match ← strSwapEx (cstr s) (cstr comma) (cstr space) with
      | none => .ub
      | some l => do
        let line ← strAt l 0
        .ok (file, line)
    else .ub

/-! ## Specification: how a program takes its arguments from the command line -/

/-- The words of a text between spaces and tabs; `cur` is the word begun. -/
def wordsFrom (cur : Bytes) : Bytes → List Bytes
  | [] => if cur = [] then [] else [cur]
  | c :: r =>
    if c = 32 ∨ c = 9 then (if cur = [] then wordsFrom [] r else cur :: wordsFrom [] r)
    else wordsFrom (cur ++ [c]) r

/-- The arguments in a command line without quotation marks that begins with a word: the words.  (With quotation marks there
are more rules; no theorem is about such lines.) -/
def argv (line : Bytes) : List Bytes := wordsFrom [] line

/-- A word that needs no quotation marks. -/
def Word (a : Bytes) : Prop := a ≠ [] ∧ 0 ∉ a ∧ 32 ∉ a ∧ 9 ∉ a ∧ 34 ∉ a ∧ 44 ∉ a

/-- The arguments as `exec` wants them: `arg1,arg2,arg3`. -/
def listed : List Bytes → Bytes
  | [] => []
  | [a] => a
  | a :: b :: as => a ++ 44 :: listed (b :: as)

/-! ## Proofs -/

def sub (s : Bytes) : Bytes := s.map fun c => if c = 44 then 32 else c

theorem sub_append (a b : Bytes) : sub (a ++ b) = sub a ++ sub b := by simp [sub]

theorem sub_id {w : Bytes} (h : 44 ∉ w) : sub w = w := by
  unfold sub
  conv_rhs => rw [← List.map_id w]
  refine List.map_congr_left fun c hc => ?_
  have : c ≠ 44 := fun e => h (e ▸ hc)
  simp [this]

theorem split_sub {s : Bytes} {ws : List Bytes} (h : Split comma s ws) : space.intercalate ws = sub s := by
  induction h with
  | last s h0 =>
    have : 44 ∉ s := fun hm => by
      obtain ⟨a, b, rfl⟩ := List.append_of_mem hm
      exact h0 a.length ⟨by simp, b, by simp [comma]⟩
    rw [sub_id this]
    simp [List.intercalate]
  | more w r ws h0 hs ih =>
    have hw : 44 ∉ w := fun hm => by
      obtain ⟨a, b, rfl⟩ := List.append_of_mem hm
      exact h0 a.length (by simp) ⟨by simp, b ++ comma ++ r, by simp [comma]⟩
    obtain ⟨w2, ws2, rfl⟩ := List.exists_cons_of_ne_nil hs.ne_nil
    have e : space.intercalate (w :: w2 :: ws2) = w ++ space ++ space.intercalate (w2 :: ws2) := by
      simp [List.intercalate, List.intersperse]
    rw [e, ih, sub_append, sub_append, sub_id hw]
    simp [sub, comma, space]

theorem sub_length (s : Bytes) : (sub s).length = s.length := by simp [sub]

theorem fileName_eq (command : Bytes) (h0 : NulFree command) (hl : command.length < 2 ^ 31) :
    fileName command = .ok ((command ++ (if ¬ dotBat <:+: command ∧ ¬ dotExe <:+: command then dotExe else [])).take 259) := by
  have h1 := str_has_iff_infix command dotBat h0 (by decide) hl
  have h2 := str_has_iff_infix command dotExe h0 (by decide) hl
  by_cases hb : dotBat <:+: command <;> by_cases he : dotExe <:+: command <;>
    simp [fileName, h1, h2, hb, he, Res.ok_bind]

theorem NulFree.of_take {s : Bytes} (n : Nat) (h : NulFree s) : NulFree (s.take n) := fun x hx =>
  h x (List.mem_of_mem_take hx)

theorem NulFree.app {a b : Bytes} (h : NulFree a) (h' : NulFree b) : NulFree (a ++ b) := fun x hx => by
  rcases List.mem_append.1 hx with hx | hx
  · exact h x hx
  · exact h' x hx

theorem exec_eq (command : Bytes) (args : Option Bytes) (h0 : NulFree command) (ha : ∀ a, args = some a → NulFree a)
    (hl : command.length < 2 ^ 30) (hla : ∀ a, args = some a → a.length < 2 ^ 30) :
    ∃ file, fileName command = .ok file ∧ exec command args = .ok (file, sub file ++ 32 :: sub (args.getD [])) := by
  have hf := fileName_eq command h0 (by omega)
  refine ⟨_, hf, ?_⟩
  generalize hF : (command ++ (if ¬ dotBat <:+: command ∧ ¬ dotExe <:+: command then dotExe else [])).take 259 = file at hf ⊢
  have hfn : NulFree file := by
    rw [← hF]
    refine NulFree.of_take _ (NulFree.app h0 ?_)
    split
    · decide
    · simp [NulFree]
  have hfl : file.length ≤ 259 := by rw [← hF]; simp
  have hg : NulFree (args.getD []) := by
    cases args with
    | none => simp [NulFree]
    | some a => exact ha a rfl
  have hgl : (args.getD []).length < 2 ^ 30 := by
    cases args with
    | none => simp
    | some a => exact hla a rfl
  have hcat : ∃ out, strCatEx (match args with
      | none => [cstr file, cstr comma]
      | some a => [cstr file, cstr comma, cstr a]) = .ok (some out) ∧
      strAt out 0 = .ok (file ++ comma ++ args.getD []) := by
    cases args with
    | none =>
      obtain ⟨o, h1, h2⟩ := str_cat_concat [file, comma] (by simp) (by simp [hfn, show NulFree comma by decide])
      exact ⟨o, h1, by simpa using h2⟩
    | some a =>
      obtain ⟨o, h1, h2⟩ := str_cat_concat [file, comma, a] (by simp) (by simp [hfn, ha a rfl, show NulFree comma by decide])
      exact ⟨o, h1, by simpa using h2⟩
  obtain ⟨out, hc1, hc2⟩ := hcat
  generalize hS : file ++ comma ++ args.getD [] = s at hc2
  have hsn : NulFree s := by
    rw [← hS]
    exact NulFree.app (NulFree.app hfn (by decide)) hg
  have hsl : s.length < 2 ^ 31 := by rw [← hS]; simp [comma]; omega
  have hin : comma <:+: s := by rw [← hS]; exact ⟨file, args.getD [], rfl⟩
  have hhas := str_has_iff_infix s comma hsn (by decide) hsl
  obtain ⟨ws, hws⟩ := Split.exists comma (by decide) s
  have hsub := split_sub hws
  have hsw := str_swap_replaces s comma space hsn (by decide) (by decide) (by decide) ws hws
    (by rw [hsub, sub_length]; omega)
  rw [if_pos hin, hsub] at hsw
  obtain ⟨l, hl1, hl2⟩ := hsw
  have e : sub s = sub file ++ 32 :: sub (args.getD []) := by
    rw [← hS]
    simp [sub, comma]
  rw [← e]
  simp only [exec, hf, Res.ok_bind, hc1, hc2, hhas, hin, decide_true, if_true, hl1, hl2]

theorem words_append_space : ∀ (u cur v : Bytes), wordsFrom cur (u ++ 32 :: v) = wordsFrom cur u ++ wordsFrom [] v
  | [], cur, v => by
    by_cases h : cur = [] <;> simp [wordsFrom, h]
  | c :: u, cur, v => by
    simp only [List.cons_append, wordsFrom]
    split
    · split
      · exact words_append_space u [] v
      · rw [words_append_space u [] v, List.cons_append]
    · exact words_append_space u (cur ++ [c]) v

theorem words_word : ∀ (u cur : Bytes), 32 ∉ u → 9 ∉ u → cur ++ u ≠ [] → wordsFrom cur u = [cur ++ u]
  | [], cur, _, _, h => by simpa [wordsFrom] using h
  | c :: u, cur, h1, h2, _ => by
    have hc : ¬ (c = 32 ∨ c = 9) := by
      rintro (rfl | rfl)
      · exact h1 (by simp)
      · exact h2 (by simp)
    rw [wordsFrom, if_neg hc, words_word u (cur ++ [c]) (fun h => h1 (by simp [h])) (fun h => h2 (by simp [h])) (by simp)]
    simp

theorem argv_space (u v : Bytes) : argv (u ++ 32 :: v) = argv u ++ argv v := words_append_space u [] v

theorem argv_word {a : Bytes} (h : Word a) : argv a = [a] := words_word a [] h.2.2.1 h.2.2.2.1 (by simpa using h.1)

theorem argv_listed : ∀ as : List Bytes, (∀ a ∈ as, 44 ∉ a) → argv (sub (listed as)) = as.flatMap argv
  | [], _ => rfl
  | [a], h => by simp [listed, sub_id (h a (by simp))]
  | a :: b :: as, h => by
    have e : sub (listed (a :: b :: as)) = a ++ 32 :: sub (listed (b :: as)) := by
      rw [listed, sub_append, sub_id (h a (by simp))]
      simp [sub]
    rw [e, argv_space, argv_listed (b :: as) (fun c hc => h c (by simp at hc ⊢; tauto))]
    rfl

theorem nulFree_listed {as : List Bytes} (h : ∀ a ∈ as, 0 ∉ a) : NulFree (listed as) := by
  induction as with
  | nil => simp [listed, NulFree]
  | cons a as ih =>
    have ha : NulFree a := fun x hx e => h a (by simp) (e ▸ hx)
    cases as with
    | nil => exact ha
    | cons b as =>
      intro x hx
      simp only [listed, List.mem_append, List.mem_cons] at hx
      rcases hx with hx | rfl | hx
      · exact ha x hx
      · decide
      · exact ih (fun c hc => h c (by simp at hc ⊢; tauto)) x hx

theorem fileName_short {command : Bytes} (h0 : NulFree command) (hl : command.length ≤ 255)
    (hb : ¬ dotBat <:+: command) (he : ¬ dotExe <:+: command) : fileName command = .ok (command ++ dotExe) := by
  rw [fileName_eq command h0 (by omega), if_pos ⟨hb, he⟩, List.take_of_length_le (by simp [dotExe]; omega)]

theorem nulFree_of {a : Bytes} (h : 0 ∉ a) : NulFree a := fun _ hx e => h (e ▸ hx)

/-! ## C227 -/

/-- **C227.** Whatever the arguments (no quotation marks): each of them arrives cut into its words, behind the words of the
name of the program. -/
theorem arguments_are_words (command : Bytes) (as : List Bytes) (hc : 0 ∉ command) (hcc : 44 ∉ command)
    (hl : command.length ≤ 255) (hb : ¬ dotBat <:+: command) (he : ¬ dotExe <:+: command)
    (h : ∀ a ∈ as, 0 ∉ a ∧ 44 ∉ a) (hal : (listed as).length < 2 ^ 30) :
    ∃ line, exec command (some (listed as)) = .ok (command ++ dotExe, line) ∧
      argv line = argv (command ++ dotExe) ++ as.flatMap argv := by
  have h0 := nulFree_of hc
  obtain ⟨file, h1, h2⟩ := exec_eq command (some (listed as)) h0
    (fun a e => by cases e; exact nulFree_listed fun a ha => (h a ha).1) (by omega) (fun a e => by cases e; exact hal)
  rw [fileName_short h0 hl hb he] at h1
  obtain rfl := Res.ok.inj h1
  refine ⟨_, h2, ?_⟩
  have hf : (44 : UInt8) ∉ command ++ dotExe := by simp [hcc, dotExe]
  rw [argv_space, sub_id hf, Option.getD_some, argv_listed as (fun a ha => (h a ha).2)]

theorem word_exe {command : Bytes} (h : Word command) : Word (command ++ dotExe) := by
  obtain ⟨_, h2, h3, h4, h5, h6⟩ := h
  exact ⟨by simp [dotExe], by simp [dotExe, h2], by simp [dotExe, h3], by simp [dotExe, h4], by simp [dotExe, h5],
    by simp [dotExe, h6]⟩

theorem flat_words {as : List Bytes} (h : ∀ a ∈ as, Word a) : as.flatMap argv = as := by
  induction as with
  | nil => rfl
  | cons a as ih => rw [List.flatMap_cons, argv_word (h a (by simp)), ih (fun b hb => h b (by simp [hb]))]; rfl

/-- **C227**, the part that holds: a program whose name is one word, given arguments that are one word each, is started with
its name and exactly these arguments. -/
theorem arguments_exact_partial (command : Bytes) (as : List Bytes) (hc : Word command) (hl : command.length ≤ 255)
    (hb : ¬ dotBat <:+: command) (he : ¬ dotExe <:+: command) (h : ∀ a ∈ as, Word a) (hal : (listed as).length < 2 ^ 30) :
    ∃ line, exec command (some (listed as)) = .ok (command ++ dotExe, line) ∧ argv line = (command ++ dotExe) :: as := by
  obtain ⟨line, h1, h2⟩ := arguments_are_words command as hc.2.1 hc.2.2.2.2.2 hl hb he
    (fun a ha => ⟨(h a ha).2.1, (h a ha).2.2.2.2.2⟩) hal
  exact ⟨line, h1, by rw [h2, argv_word (word_exe hc), flat_words h]; rfl⟩

/-- `exec("ls", "-l,x")`. -/
example : exec [108, 115] (some (listed [[45, 108], [120]])) =
      .ok ([108, 115] ++ dotExe, [108, 115, 46, 101, 120, 101, 32, 45, 108, 32, 120]) ∧
    argv [108, 115, 46, 101, 120, 101, 32, 45, 108, 32, 120] = ([108, 115] ++ dotExe) :: [[45, 108], [120]] := by
  constructor <;> decide +kernel

/-- **C227.** Without arguments it gets its name only. -/
theorem null_arguments (command : Bytes) (hc : Word command) (hl : command.length ≤ 255)
    (hb : ¬ dotBat <:+: command) (he : ¬ dotExe <:+: command) :
    ∃ line, exec command none = .ok (command ++ dotExe, line) ∧ argv line = [command ++ dotExe] := by
  have h0 := nulFree_of hc.2.1
  obtain ⟨file, h1, h2⟩ := exec_eq command none h0 (by simp) (by omega) (by simp)
  rw [fileName_short h0 hl hb he] at h1
  obtain rfl := Res.ok.inj h1
  refine ⟨_, h2, ?_⟩
  rw [argv_space, sub_id (word_exe hc).2.2.2.2.2, argv_word (word_exe hc)]
  rfl

/-- **C227, false of the code:** an argument of two words arrives as two arguments. -/
theorem argument_with_space_split (command : Bytes) (as bs : List Bytes) (u v : Bytes) (hc : Word command)
    (hl : command.length ≤ 255) (hb : ¬ dotBat <:+: command) (he : ¬ dotExe <:+: command)
    (ha : ∀ a ∈ as, Word a) (hbs : ∀ b ∈ bs, Word b) (hu : Word u) (hv : Word v)
    (hal : (listed (as ++ (u ++ 32 :: v) :: bs)).length < 2 ^ 30) :
    ∃ line, exec command (some (listed (as ++ (u ++ 32 :: v) :: bs))) = .ok (command ++ dotExe, line) ∧
      argv line = (command ++ dotExe) :: (as ++ u :: v :: bs) := by
  obtain ⟨line, h1, h2⟩ := arguments_are_words command (as ++ (u ++ 32 :: v) :: bs) hc.2.1 hc.2.2.2.2.2 hl hb he
    (fun a h => by
      rcases List.mem_append.1 h with h | h
      · exact ⟨(ha a h).2.1, (ha a h).2.2.2.2.2⟩
      rcases List.mem_cons.1 h with rfl | h
      · exact ⟨by simp [hu.2.1, hv.2.1], by simp [hu.2.2.2.2.2, hv.2.2.2.2.2]⟩
      · exact ⟨(hbs a h).2.1, (hbs a h).2.2.2.2.2⟩) hal
  refine ⟨line, h1, ?_⟩
  rw [h2, argv_word (word_exe hc), List.flatMap_append, List.flatMap_cons, flat_words ha, flat_words hbs, argv_space,
    argv_word hu, argv_word hv]
  simp

/-- `exec("ls", "a b")`. -/
example : exec [108, 115] (some [97, 32, 98]) = .ok ([108, 115] ++ dotExe, [108, 115, 46, 101, 120, 101, 32, 97, 32, 98]) ∧
    argv [108, 115, 46, 101, 120, 101, 32, 97, 32, 98] = ([108, 115] ++ dotExe) :: [[97], [98]] := by
  constructor <;> decide +kernel

/-- **C227, false of the code:** an empty argument does not arrive. -/
theorem empty_argument_lost (command : Bytes) (as bs : List Bytes) (hc : Word command)
    (hl : command.length ≤ 255) (hb : ¬ dotBat <:+: command) (he : ¬ dotExe <:+: command)
    (ha : ∀ a ∈ as, Word a) (hbs : ∀ b ∈ bs, Word b) (hal : (listed (as ++ [] :: bs)).length < 2 ^ 30) :
    ∃ line, exec command (some (listed (as ++ [] :: bs))) = .ok (command ++ dotExe, line) ∧
      argv line = (command ++ dotExe) :: (as ++ bs) := by
  obtain ⟨line, h1, h2⟩ := arguments_are_words command (as ++ [] :: bs) hc.2.1 hc.2.2.2.2.2 hl hb he
    (fun a h => by
      rcases List.mem_append.1 h with h | h
      · exact ⟨(ha a h).2.1, (ha a h).2.2.2.2.2⟩
      rcases List.mem_cons.1 h with rfl | h
      · simp
      · exact ⟨(hbs a h).2.1, (hbs a h).2.2.2.2.2⟩) hal
  refine ⟨line, h1, ?_⟩
  rw [h2, argv_word (word_exe hc), List.flatMap_append, List.flatMap_cons, flat_words ha, flat_words hbs]
  simp [argv, wordsFrom]

/-- **C227, false of the code:** if the name of the program has a space in it (`C:\Program Files\...`), its second half arrives
as first argument and all others move by one. -/
theorem name_with_space_shifts (u v : Bytes) (as : List Bytes) (hu : Word u) (hv : Word v)
    (hl : (u ++ 32 :: v).length ≤ 255) (hb : ¬ dotBat <:+: u ++ 32 :: v) (he : ¬ dotExe <:+: u ++ 32 :: v)
    (h : ∀ a ∈ as, Word a) (hal : (listed as).length < 2 ^ 30) :
    ∃ line, exec (u ++ 32 :: v) (some (listed as)) = .ok (u ++ 32 :: v ++ dotExe, line) ∧
      argv line = u :: (v ++ dotExe) :: as := by
  obtain ⟨line, h1, h2⟩ := arguments_are_words (u ++ 32 :: v) as (by simp [hu.2.1, hv.2.1])
    (by simp [hu.2.2.2.2.2, hv.2.2.2.2.2]) hl hb he (fun a ha => ⟨(h a ha).2.1, (h a ha).2.2.2.2.2⟩) hal
  refine ⟨line, h1, ?_⟩
  have e : u ++ 32 :: v ++ dotExe = u ++ 32 :: (v ++ dotExe) := by simp
  rw [h2, e, argv_space, argv_word hu, argv_word (word_exe hv), flat_words h]
  simp

example : Word [97] ∧ exec [97, 32, 98] (some [99]) = .ok ([97, 32, 98] ++ dotExe, [97, 32, 98, 46, 101, 120, 101, 32, 99]) :=
  ⟨⟨by simp, by decide, by decide, by decide, by decide, by decide⟩, by decide +kernel⟩

/-- **C227, false of the code:** a name that has `.exe` or `.bat` anywhere in it, not only at its end, gets no `.exe`. -/
theorem name_with_exe_inside (u v : Bytes) (hu : 0 ∉ u) (hv : 0 ∉ v) (hl : (u ++ dotExe ++ v).length ≤ 259) :
    fileName (u ++ dotExe ++ v) = .ok (u ++ dotExe ++ v) := by
  have h0 : NulFree (u ++ dotExe ++ v) := NulFree.app (NulFree.app (nulFree_of hu) (by decide)) (nulFree_of hv)
  have hin : dotExe <:+: u ++ dotExe ++ v := ⟨u, v, rfl⟩
  rw [fileName_eq _ h0 (by omega), if_neg (fun h => h.2 hin), List.append_nil, List.take_of_length_le hl]

/-- `my.exercise`. -/
example : fileName ([109, 121] ++ dotExe ++ [114, 99, 105, 115, 101]) = .ok [109, 121, 46, 101, 120, 101, 114, 99, 105, 115, 101] := by
  decide +kernel

/-- **C227, false of the code:** of a longer name only 259 bytes are used, so that another program may be started. -/
theorem long_name_cut (command : Bytes) (hc : 0 ∉ command) (hl : 259 ≤ command.length) (hl' : command.length < 2 ^ 30) :
    fileName command = .ok (command.take 259) := by
  rw [fileName_eq command (nulFree_of hc) (by omega), List.take_append_of_le_length hl]

example : (0 : UInt8) ∉ List.replicate 300 (97 : UInt8) ∧ 259 ≤ (List.replicate 300 (97 : UInt8)).length := by
  constructor <;> decide +kernel

end Verif.Win.CmdLine
