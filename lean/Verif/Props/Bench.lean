import Verif.Model.Bench
import Mathlib.Data.Nat.Digits.Lemmas
import Mathlib.Algebra.Order.Round
import Mathlib.Tactic.IntervalCases
import Mathlib.Tactic.Linarith
import Mathlib.Tactic.FieldSimp
/-!
# What the benchmarks print (C128, C129, C130)
-/

set_option autoImplicit false

namespace DW.Props.BenchP

open DW.Bench DW.Float
open scoped ENNReal

noncomputable section

/-! ## Numbers as texts -/

/-- The value of a digit. -/
def value (c : Char) : ℕ := c.toNat - 48

/-- Characters of whole numbers. -/
def isNum (c : Char) : Bool := c = '-' || (48 ≤ c.toNat && c.toNat < 58)

theorem digit_toNat {d : ℕ} (h : d < 10) : (Char.ofNat (48 + d)).toNat = 48 + d := by
  interval_cases d <;> rfl

theorem decNat_value (n : ℕ) : Nat.ofDigits 10 ((decNat n).reverse.map value) = n := by
  unfold decNat
  split_ifs with h
  · subst h
    rfl
  · rw [← List.map_reverse, List.reverse_reverse, List.map_map]
    have : (Nat.digits 10 n).map (value ∘ fun d => Char.ofNat (48 + d)) = Nat.digits 10 n := by
      conv_rhs => rw [← List.map_id (Nat.digits 10 n)]
      refine List.map_congr_left fun d hd => ?_
      have := Nat.digits_lt_base (by norm_num) hd
      show (Char.ofNat (48 + d)).toNat - 48 = d
      rw [digit_toNat this]
      omega
    rw [this, Nat.ofDigits_digits]

theorem decNat_num {n : ℕ} {c : Char} (h : c ∈ decNat n) : 48 ≤ c.toNat ∧ c.toNat < 58 := by
  unfold decNat at h
  split_ifs at h with h0
  · rw [List.mem_singleton] at h
    subst h
    decide
  · obtain ⟨d, hd, rfl⟩ := List.mem_map.1 h
    have := Nat.digits_lt_base (by norm_num) (List.mem_reverse.1 hd)
    rw [digit_toNat this]
    omega

theorem decNat_ne (n : ℕ) : decNat n ≠ [] := by
  unfold decNat
  split_ifs with h
  · simp
  · simpa [Nat.digits_eq_nil_iff_eq_zero] using h

theorem decInt_num {x : ℤ} {c : Char} (h : c ∈ decInt x) : isNum c = true := by
  unfold decInt at h
  unfold isNum
  split_ifs at h with h0
  · rcases List.mem_cons.1 h with rfl | h
    · rfl
    · have := decNat_num h
      simp [this]
  · have := decNat_num h
    simp [this]

theorem decNat_inj {m n : ℕ} (h : decNat m = decNat n) : m = n := by rw [← decNat_value m, h, decNat_value]

theorem decInt_inj {x y : ℤ} (h : decInt x = decInt y) : x = y := by
  have minus : ∀ n l, '-' :: l ≠ decNat n := fun n l e => by
    have := decNat_num (n := n) (c := '-') (by rw [← e]; exact List.mem_cons_self)
    exact absurd this (by decide)
  unfold decInt at h
  split_ifs at h with h1 h2 h2
  · have := decNat_inj (List.cons_inj_right _ |>.1 h)
    omega
  · exact absurd h (minus _ _)
  · exact absurd h.symm (minus _ _)
  · have := decNat_inj h
    omega

/-! ## Shapes -/

theorem cut {a b r r' : Text} {c c' : Char} (ha : ∀ x ∈ a, isNum x = true) (hb : ∀ x ∈ b, isNum x = true) (hc : isNum c = false)
    (hc' : isNum c' = false) (h : a ++ c :: r = b ++ c' :: r') : a = b ∧ c = c' ∧ r = r' := by
  have e := congrArg (List.takeWhile isNum) h
  rw [List.takeWhile_append_of_pos ha, List.takeWhile_append_of_pos hb, List.takeWhile_cons_of_neg (by simp [hc]),
    List.takeWhile_cons_of_neg (by simp [hc']), List.append_nil, List.append_nil] at e
  subst e
  have := List.append_cancel_left h
  exact ⟨rfl, (List.cons.inj this).1, (List.cons.inj this).2⟩

theorem elements_inj : ∀ {l l' : List ℤ}, l ≠ [] → l' ≠ [] → elements l = elements l' → l = l'
  | [], _, h, _, _ => absurd rfl h
  | _, [], _, h, _ => absurd rfl h
  | [x], [y], _, _, h => by
    obtain ⟨e, -⟩ := cut (fun _ => decInt_num) (fun _ => decInt_num) (by decide) (by decide) h
    rw [decInt_inj e]
  | [x], y :: z :: l, _, _, h => by
    simp only [elements, List.append_assoc, List.cons_append] at h
    obtain ⟨-, e, -⟩ := cut (fun _ => decInt_num) (fun _ => decInt_num) (by decide) (by decide) h
    exact absurd e (by decide)
  | x :: w :: k, [y], _, _, h => by
    simp only [elements, List.append_assoc, List.cons_append] at h
    obtain ⟨-, e, -⟩ := cut (fun _ => decInt_num) (fun _ => decInt_num) (by decide) (by decide) h
    exact absurd e (by decide)
  | x :: w :: k, y :: z :: l, _, _, h => by
    simp only [elements, List.append_assoc, List.cons_append] at h
    obtain ⟨e, -, e'⟩ := cut (fun _ => decInt_num) (fun _ => decInt_num) (by decide) (by decide) h
    have t : w :: k = z :: l := elements_inj (List.cons_ne_nil _ _) (List.cons_ne_nil _ _) (by simpa using (List.cons.inj e').2)
    rw [decInt_inj e, t]

/-- **C128.** Two shapes that are printed alike are equal. -/
theorem shape_inj {l l' : List ℤ} (h : printShape l = printShape l') : l = l' := by
  unfold printShape at h
  split_ifs at h with h1 h2 h2
  · rw [h1, h2]
  · exact elements_inj h1 h2 (List.cons.inj h).2

/-- The numbers and separators of a shape, for shapes that are not empty. -/
theorem shape_text (x : ℤ) (l : List ℤ) : printShape (x :: l) = '[' :: decInt x ++ l.flatMap (fun y => [',', ' '] ++ decInt y) ++ [']'] := by
  have : ∀ (l : List ℤ) (x : ℤ), elements (x :: l) = decInt x ++ l.flatMap (fun y => [',', ' '] ++ decInt y) ++ [']'] := by
    intro l
    induction l with
    | nil => intro x; simp [elements]
    | cons y l ih =>
      intro x
      show decInt x ++ [',', ' '] ++ elements (y :: l) = _
      rw [ih y]
      simp
  unfold printShape
  rw [if_neg (List.cons_ne_nil _ _), this]
  simp

/-- The shape of the images of MNIST. -/
example : printShape [28, 28] = "[28, 28]".toList := by
  rw [shape_text]
  norm_num [decInt, decNat]
  decide

/-! ## Lines -/

theorem subSize_of_le {a b : ℕ} (h : b ≤ a) (ha : a < 2 ^ 64) : subSize a b = a - b := by
  unfold subSize
  rw [show a + 2 ^ 64 - b = a - b + 2 ^ 64 by omega, Nat.add_mod_right, Nat.mod_eq_of_lt (by omega)]

theorem subSize_of_lt {a b : ℕ} (h : a < b) (hb : b < 2 ^ 64) : subSize a b = 2 ^ 64 - (b - a) := by
  unfold subSize
  rw [Nat.mod_eq_of_lt (by omega)]
  omega

/-- **C129, columns.** A text of at most 20 characters is in the middle of its column, which is 20 wide. -/
theorem cell_short {t : Text} (h : t.length ≤ 20) :
    cell t = spaces ((20 - t.length) / 2) ++ t ++ spaces ((20 - t.length + 1) / 2) ++ ['|', '|'] := by
  unfold cell
  have : subSize ((width - 8) / 4) t.length = 20 - t.length := subSize_of_le h (by norm_num [width, outputWidth])
  simp only [this]
  congr 3
  split_ifs <;> omega

theorem cell_length {t : Text} (h : t.length ≤ 20) : (cell t).length = 22 := by
  rw [cell_short h]
  simp [spaces]
  omega

/-- **C129, rows.** The columns of all rows are in the same places. -/
theorem row_length {a b c d : Text} (ha : a.length ≤ 20) (hb : b.length ≤ 20) (hc : c.length ≤ 20) (hd : d.length ≤ 20) :
    (row a b c d).length = 91 := by
  unfold row
  simp [cell_length, ha, hb, hc, hd]

theorem rule_length (c : Char) (n : ℕ) : (rule c n).length = n + 1 := by simp [rule]

/-- **C129, refuted.** The lines between the rows are two characters shorter than the rows. -/
theorem rules_refuted {a b c d : Text} (ha : a.length ≤ 20) (hb : b.length ≤ 20) (hc : c.length ≤ 20) (hd : d.length ≤ 20) :
    (row a b c d).length = (rule '=' width).length + 2 := by
  rw [row_length ha hb hc hd, rule_length]
  rfl

/-- **C129, refuted.** A text of more than 20 characters: more than `2 ^ 64` characters are printed for it. -/
theorem cell_long {t : Text} (h : 20 < t.length) (h' : t.length < 2 ^ 64) : (cell t).length = 2 ^ 64 + 22 := by
  unfold cell
  have : subSize ((width - 8) / 4) t.length = 2 ^ 64 - (t.length - 20) := subSize_of_lt h h'
  simp only [this]
  simp only [spaces, List.length_append, List.length_replicate, List.length_cons, List.length_nil]
  split_ifs <;> omega

/-- What a stream gets. -/
def got (os : Out) (l : Log) : Text := (l.filter fun p => p.1 = os).map Prod.snd

theorem got_append (os : Out) (l l' : Log) : got os (l ++ l') = got os l ++ got os l' := by simp [got]

theorem got_put (os : Out) (t : Text) : got os (put os t) = t := by
  induction t with
  | nil => rfl
  | cons c t ih =>
    show got os ((os, c) :: put os t) = _
    unfold got at ih ⊢
    rw [List.filter_cons_of_pos (by simp), List.map_cons, ih]

theorem got_other {os os' : Out} (h : os ≠ os') (t : Text) : got os (put os' t) = [] := by
  induction t with
  | nil => rfl
  | cons c t ih =>
    show got os ((os', c) :: put os' t) = _
    unfold got at ih ⊢
    rw [List.filter_cons_of_neg (by simpa using h.symm), ih]

theorem block_short {n : ℕ} (h : n ≤ 86) : toInt (subSize (width - 2) n / 2) = ((86 - n) / 2 : ℕ) := by
  have e : subSize (width - 2) n = 86 - n := subSize_of_le h (by norm_num [width, outputWidth])
  rw [e]
  unfold toInt
  rw [Int.bmod_eq_of_le] <;> omega

/-- **C129, headers.** The text between two lines of 88 stars, if all goes to `std::cout` and the text has at most 86 characters. -/
theorem header_partial {t : Text} (h : t.length ≤ 86) : got .cout (printHeader t .cout) =
    rule '*' 88 ++ (['*'] ++ spaces ((86 - t.length) / 2) ++ t ++ spaces ((86 - t.length) / 2) ++ ['*', '\n']) ++ rule '*' 88 := by
  unfold printHeader
  simp only [block_short h, got_append, got_put]
  have : toSize ((86 - t.length) / 2 : ℕ) = (86 - t.length) / 2 := by
    unfold toSize
    rw [Int.emod_eq_of_lt] <;> omega
  rw [this, Int.toNat_natCast]
  simp [width, outputWidth]

/-- Its line is as wide as the others exactly if the text has an even number of characters. -/
theorem header_width {t : Text} (h : t.length ≤ 86) :
    (['*'] ++ spaces ((86 - t.length) / 2) ++ t ++ spaces ((86 - t.length) / 2) ++ ['*', '\n']).length = (rule '*' 88).length ↔ t.length % 2 = 0 := by
  simp [spaces, rule]
  omega

/-- **C129, refuted.** The header "Torch" is narrower than the stars above and below. -/
theorem header_refuted : (['*'] ++ spaces ((86 - "Torch".toList.length) / 2) ++ "Torch".toList ++ spaces ((86 - "Torch".toList.length) / 2) ++
    ['*', '\n']).length ≠ (rule '*' 88).length := by
  rw [Ne, header_width (by decide)]
  decide

/-- **C129, refuted.** With another stream, that one does not get the text, and `std::cout` gets it. -/
theorem header_stream_refuted {t : Text} (h : t.length ≤ 86) : got .cout (printHeader t .other) = '*' :: t ∧
    got .other (printHeader t .other) = rule '*' 88 ++ spaces ((86 - t.length) / 2) ++ spaces ((86 - t.length) / 2) ++ ['*', '\n'] ++ rule '*' 88 := by
  unfold printHeader
  have : toSize ((86 - t.length) / 2 : ℕ) = (86 - t.length) / 2 := by
    unfold toSize
    rw [Int.emod_eq_of_lt] <;> omega
  have n1 : Out.cout ≠ Out.other := by decide
  simp only [block_short h, got_append, got_put, got_other n1, got_other n1.symm, this, Int.toNat_natCast]
  simp [width, outputWidth]

/-- **C129, delimiters.** 80 characters, all to the stream that is given. -/
theorem delimiter {os os' : Out} (h : os' ≠ os) : got os (printDelimiter os) = List.replicate 80 '-' ++ ['\n'] ∧ got os' (printDelimiter os) = [] :=
  ⟨got_put _ _, got_other h _⟩

/-- **C129, refuted.** A header of more than 86 characters: more than `2 ^ 63` spaces. -/
theorem header_long {t : Text} (h : 86 < t.length) (h' : t.length < 2 ^ 31) : 2 ^ 63 < (printHeader t .cout).length := by
  have e : toInt (subSize (width - 2) t.length / 2) = -(((t.length - 85) / 2 : ℕ) : ℤ) := by
    rw [show width - 2 = 86 from rfl, subSize_of_lt h (by omega)]
    unfold toInt
    rw [show (((2 ^ 64 - (t.length - 86)) / 2 : ℕ) : ℤ) = -(((t.length - 85) / 2 : ℕ) : ℤ) + (2 ^ 31 : ℕ) * ((2 ^ 32 : ℕ) : ℤ) by omega,
      Int.add_mul_bmod_self_right, Int.bmod_eq_of_le] <;> omega
  have s : toSize (-(((t.length - 85) / 2 : ℕ) : ℤ)) = 2 ^ 64 - (t.length - 85) / 2 := by
    unfold toSize
    omega
  unfold printHeader
  simp only [e, s]
  simp [put, spaces, rule]
  omega

end

end DW.Props.BenchP
