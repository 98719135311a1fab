/-!
# Memory as bytes, for the machine code that switches between tasks

Addresses and values are natural numbers; a value is stored in `n` bytes, the
lowest first, as all the machines of `src/asm.c` do.
-/

namespace Verif.Switch

/-- A byte at every address, taken modulo 256. -/
abbrev Mem := Nat → Nat

/-- The value of the `n` bytes from `a` on. -/
def rd (m : Mem) (a : Nat) : Nat → Nat
  | 0 => 0
  | n + 1 => m a % 256 + 256 * rd m (a + 1) n

/-- Store `v` in the `n` bytes from `a` on. -/
def wr (m : Mem) (a : Nat) : Nat → Nat → Mem
  | 0, _ => m
  | n + 1, v => wr (fun x => if x = a then v % 256 else m x) (a + 1) n (v / 256)

/-- Two ranges have no byte in common. -/
def Apart (a n b k : Nat) : Prop := a + n ≤ b ∨ b + k ≤ a

theorem wr_out {m : Mem} {a n v x : Nat} (h : x < a ∨ a + n ≤ x) : wr m a n v x = m x := by
  induction n generalizing m a v with
  | zero => rfl
  | succ n ih =>
    rw [wr, ih (by omega), if_neg (by omega)]

theorem rd_congr {m m' : Mem} {a n : Nat} (h : ∀ x, a ≤ x → x < a + n → m x = m' x) :
    rd m a n = rd m' a n := by
  induction n generalizing a with
  | zero => rfl
  | succ n ih =>
    rw [rd, rd, h a (Nat.le_refl _) (by omega), ih fun x h1 h2 => h x (by omega) (by omega)]

theorem rd_wr_same (m : Mem) (a n v : Nat) : rd (wr m a n v) a n = v % 256 ^ n := by
  induction n generalizing m a v with
  | zero => simp [rd, Nat.mod_one]
  | succ n ih =>
    rw [wr, rd, ih, wr_out (by omega), if_pos rfl, Nat.mod_mod, Nat.pow_succ, Nat.mul_comm (256 ^ n),
      Nat.mod_mul]

theorem rd_wr_apart {m : Mem} {a n v b k : Nat} (h : Apart a n b k) :
    rd (wr m a n v) b k = rd m b k :=
  rd_congr fun x h1 h2 => wr_out (by unfold Apart at h; omega)

theorem rd_lt (m : Mem) (a n : Nat) : rd m a n < 256 ^ n := by
  induction n generalizing a with
  | zero => simp [rd]
  | succ n ih =>
    have := ih (a + 1)
    have h2 : m a % 256 < 256 := Nat.mod_lt _ (by omega)
    rw [rd, Nat.pow_succ]
    omega

/-- A list of stores: address, number of bytes, value. -/
def wrAll (m : Mem) : List (Nat × Nat × Nat) → Mem
  | [] => m
  | (a, n, v) :: l => wrAll (wr m a n v) l

theorem wrAll_out {m : Mem} {l : List (Nat × Nat × Nat)} {x : Nat}
    (h : ∀ e ∈ l, x < e.1 ∨ e.1 + e.2.1 ≤ x) : wrAll m l x = m x := by
  induction l generalizing m with
  | nil => rfl
  | cons e l ih =>
    obtain ⟨a, n, v⟩ := e
    rw [wrAll, ih fun e he => h e (List.mem_cons_of_mem _ he), wr_out (h _ List.mem_cons_self)]

theorem rd_wrAll_apart {m : Mem} {l : List (Nat × Nat × Nat)} {b k : Nat}
    (h : ∀ e ∈ l, Apart e.1 e.2.1 b k) : rd (wrAll m l) b k = rd m b k :=
  rd_congr fun x h1 h2 => wrAll_out fun e he => by
    have := h e he
    unfold Apart at this
    omega

theorem rd_wrAll_mem {m : Mem} {l : List (Nat × Nat × Nat)}
    (hp : l.Pairwise fun e f => Apart e.1 e.2.1 f.1 f.2.1) {a n v : Nat} (h : (a, n, v) ∈ l) :
    rd (wrAll m l) a n = v % 256 ^ n := by
  induction l generalizing m with
  | nil => simp at h
  | cons e l ih =>
    rw [List.pairwise_cons] at hp
    rw [List.mem_cons] at h
    rcases h with rfl | h
    · rw [wrAll, rd_wrAll_apart, rd_wr_same]
      intro f hf
      have := hp.1 f hf
      unfold Apart at this ⊢
      dsimp only at this
      omega
    · obtain ⟨a', n', v'⟩ := e
      rw [wrAll]
      exact ih hp.2 h

end Verif.Switch
