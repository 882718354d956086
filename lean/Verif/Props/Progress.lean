import Verif.Model.Progress
import Verif.Props.Bench
import Mathlib.Algebra.Order.Ring.Int
import Mathlib.Tactic.Linarith
import Mathlib.Tactic.Ring
/-!
# The command line and the progress of the samples (C133, C134)
-/

set_option autoImplicit false

namespace DW.Props.ProgressP

open DW.Progress DW.Props.BenchP
open DW.Bench (Text decNat decInt)
open DW.Samples (isSpace digits)
open DW.Tensor (fitsInt)

/-! ## The command line -/

theorem digits_ofDigits (l : Text) : digits l = Nat.ofDigits 10 (l.reverse.map value) := by
  induction l using List.reverseRecOn with
  | nil => rfl
  | append_singleton l c ih =>
    rw [List.reverse_append]
    simp only [List.reverse_cons, List.reverse_nil, List.nil_append, List.cons_append, List.map_cons, Nat.ofDigits_cons, ← ih]
    simp only [digits, List.foldl_append, List.foldl_cons, List.foldl_nil, value, Nat.cast_id]
    have : '0'.toNat = 48 := rfl
    rw [this]
    omega

theorem isDigit_of {c : Char} (h : 48 ≤ c.toNat ∧ c.toNat < 58) : c.isDigit = true := by
  have h1 := h.1
  have h2 := h.2
  simp only [Char.isDigit, Bool.and_eq_true, decide_eq_true_eq, ge_iff_le, UInt32.le_iff_toNat_le]
  show 48 ≤ c.toNat ∧ c.toNat ≤ 57
  omega

theorem takeWhile_dec (n : ℕ) {rest : Text} (h : ∀ c ∈ rest.head?, c.isDigit = false) : (decNat n ++ rest).takeWhile Char.isDigit = decNat n := by
  rw [List.takeWhile_append_of_pos fun c hc => isDigit_of (decNat_num hc)]
  cases rest with
  | nil => simp
  | cons c l => simp [List.takeWhile_cons, h c (by simp)]

theorem decNat_head (n : ℕ) : ∃ c l, decNat n = c :: l ∧ 48 ≤ c.toNat ∧ c.toNat < 58 := by
  obtain ⟨c, l, h⟩ := List.exists_cons_of_ne_nil (decNat_ne n)
  exact ⟨c, l, h, decNat_num (n := n) (by rw [h]; exact List.mem_cons_self)⟩

theorem digits_dec (n : ℕ) : digits (decNat n) = n := by rw [digits_ofDigits, decNat_value]

/-- What `atoi` makes of a whole number in decimal notation, followed by something that does not begin with a digit. -/
theorem atoi_dec {n : ℤ} {rest : Text} (h : ∀ c ∈ rest.head?, c.isDigit = false) :
    atoi (decInt n ++ rest) = if -2147483648 ≤ n ∧ n ≤ 2147483647 then .ok n else .ub .overflow := by
  have fits : (if fitsInt n then Out.ok n else .ub .overflow) = if -2147483648 ≤ n ∧ n ≤ 2147483647 then Out.ok n else .ub .overflow := by
    simp [fitsInt]
  rw [← fits]
  by_cases hn : n < 0
  · have e : decInt n = '-' :: decNat n.natAbs := by rw [decInt, if_pos hn]
    have : ('-' :: (decNat n.natAbs ++ rest)).dropWhile isSpace = '-' :: (decNat n.natAbs ++ rest) := by
      rw [List.dropWhile_cons_of_neg (by decide)]
    have v : -((n.natAbs : ℕ) : ℤ) = n := by omega
    simp only [atoi, e, List.cons_append, this, List.head?_cons, beq_self_eq_true, Bool.true_or, if_true, List.drop_one, List.tail_cons,
      takeWhile_dec _ h, digits_dec, v]
  · have e : decInt n = decNat n.natAbs := by rw [decInt, if_neg hn]
    obtain ⟨c, l, hc, h1, h2⟩ := decNat_head n.natAbs
    have hs : isSpace c = false := by
      have : c ≠ ' ' := fun e => by rw [e] at h1; exact absurd h1 (by decide)
      simp [isSpace, this]
      omega
    have hm : (some c == some '-') = false := by
      have : c ≠ '-' := fun e => by rw [e] at h1; exact absurd h1 (by decide)
      simp [this]
    have hp : (some c == some '+') = false := by
      have : c ≠ '+' := fun e => by rw [e] at h1; exact absurd h1 (by decide)
      simp [this]
    have d : (decNat n.natAbs ++ rest).dropWhile isSpace = decNat n.natAbs ++ rest := by
      rw [hc, List.cons_append, List.dropWhile_cons_of_neg (by simp [hs])]
    have hd : (decNat n.natAbs ++ rest).head? = some c := by rw [hc]; rfl
    have v : ((n.natAbs : ℕ) : ℤ) = n := by omega
    simp only [atoi, e, d, hd, hm, hp, Bool.or_false, if_false, Bool.false_eq_true, takeWhile_dec _ h, digits_dec, v]

/-- Numbers of type `int`. -/
def IsInt (n : ℤ) : Prop := -2147483648 ≤ n ∧ n ≤ 2147483647

theorem atoi_num {n : ℤ} (h : IsInt n) : atoi (decInt n) = .ok n := by
  have := atoi_dec (n := n) (rest := []) (by simp)
  unfold IsInt at h
  rwa [List.append_nil, if_pos h] at this

/-- **C133, training.** -/
theorem train_config {train test root path : Text} {b e f : ℤ} (hb : IsInt b) (he : IsInt e) (hf : IsInt f) (more : List Text) :
    config train test ("train".toList :: root :: decInt b :: decInt e :: decInt f :: path :: more) =
      .ok ⟨false, root ++ train, root ++ test, b, e, f, path⟩ := by
  have : "train".toList = ['t', 'r', 'a', 'i', 'n'] := by decide
  simp [config, arg, this, atoi_num hb, atoi_num he, atoi_num hf]

/-- **C133, testing.** -/
theorem test_config {train test root path : Text} {b : ℤ} (hb : IsInt b) (more : List Text) :
    config train test ("test".toList :: root :: decInt b :: path :: more) = .ok ⟨true, root ++ train, root ++ test, b, -1, -1, path⟩ := by
  have : "test".toList = ['t', 'e', 's', 't'] := by decide
  simp [config, arg, this, atoi_num hb]

/-- **C133, other modes** are rejected. -/
theorem mode_rejected {train test mode root : Text} {b : ℤ} (hb : IsInt b) (h1 : mode ≠ "train".toList) (h2 : mode ≠ "test".toList) (more : List Text) :
    config train test (mode :: root :: decInt b :: more) = .throw .std := by
  have e1 : "train".toList = ['t', 'r', 'a', 'i', 'n'] := by decide
  have e2 : "test".toList = ['t', 'e', 's', 't'] := by decide
  rw [e1] at h1
  rw [e2] at h2
  simp [config, arg, atoi_num hb, h1, h2]

theorem arg_ok {args : List Text} {i : ℕ} {t : Text} : arg args i = .ok t ↔ args[i]? = some t := by
  unfold arg
  cases args[i]? with
  | none => simp only [reduceCtorEq, iff_false]; split_ifs <;> simp
  | some u => simp

/-- **C133, what is accepted.** A program that goes on was given all arguments of its mode, and each number is what `atoi` makes of one. -/
theorem config_partial {train test : Text} {args : List Text} {c : Config} (h : config train test args = .ok c) :
    (∃ root b e f path more, args = "train".toList :: root :: b :: e :: f :: path :: more ∧ c.test = false ∧ atoi b = .ok c.batch ∧ atoi e = .ok c.epochs ∧
      atoi f = .ok c.freq ∧ c.path = path ∧ c.trainDir = root ++ train ∧ c.testDir = root ++ test) ∨
    ∃ root b path more, args = "test".toList :: root :: b :: path :: more ∧ c.test = true ∧ atoi b = .ok c.batch ∧ c.path = path ∧
      c.testDir = root ++ test := by
  have e1 : "train".toList = ['t', 'r', 'a', 'i', 'n'] := by decide
  have e2 : "test".toList = ['t', 'e', 's', 't'] := by decide
  rw [e1, e2]
  simp only [config, Out.bind_eq_ok, arg_ok] at h
  obtain ⟨mode, h0, root, h1, b', ⟨b, h2, hb⟩, h⟩ := h
  split_ifs at h with m1 m2
  · left
    simp only [Out.bind_eq_ok, arg_ok, Out.pure_def, Out.ok.injEq] at h
    obtain ⟨e', ⟨e, h3, he⟩, f', ⟨f, h4, hf⟩, path, h5, rfl⟩ := h
    obtain ⟨more, hm⟩ : ∃ more, args = mode :: root :: b :: e :: f :: path :: more := by
      rcases args with _ | ⟨_, _ | ⟨_, _ | ⟨_, _ | ⟨_, _ | ⟨_, _ | ⟨_, more⟩⟩⟩⟩⟩⟩ <;> simp at h0 h1 h2 h3 h4 h5
      exact ⟨more, by rw [h0, h1, h2, h3, h4, h5]⟩
    exact ⟨root, b, e, f, path, more, by rw [hm, m1], rfl, hb, he, hf, rfl, rfl, rfl⟩
  · right
    simp only [Out.bind_eq_ok, arg_ok, Out.pure_def, Out.ok.injEq] at h
    obtain ⟨path, h3, rfl⟩ := h
    obtain ⟨more, hm⟩ : ∃ more, args = mode :: root :: b :: path :: more := by
      rcases args with _ | ⟨_, _ | ⟨_, _ | ⟨_, _ | ⟨_, more⟩⟩⟩⟩ <;> simp at h0 h1 h2 h3
      exact ⟨more, by rw [h0, h1, h2, h3]⟩
    exact ⟨root, b, path, more, by rw [hm, m2], rfl, hb, rfl, rfl⟩

/-- **C133, refuted: missing arguments** are not reported; the program uses a null pointer. -/
theorem missing_refuted (train test root : Text) {b e f : ℤ} (hb : IsInt b) (he : IsInt e) (hf : IsInt f) :
    config train test [] = .ub .null ∧ config train test ["train".toList, root, decInt b] = .ub .null ∧
    config train test ["train".toList, root, decInt b, decInt e, decInt f] = .ub .null ∧
    config train test ["test".toList, root, decInt b] = .ub .null := by
  have e1 : "train".toList = ['t', 'r', 'a', 'i', 'n'] := by decide
  have e2 : "test".toList = ['t', 'e', 's', 't'] := by decide
  simp [config, arg, e1, e2, atoi_num hb, atoi_num he, atoi_num hf]

/-- **C133, refuted: arguments that are not numbers** are not reported: a text that begins with a letter is the number 0, and what follows a
number is ignored. -/
theorem garbage_refuted : (∀ (c : Char) (l : Text), c.isAlpha = true → atoi (c :: l) = .ok 0) ∧
    ∀ (n : ℤ) (c : Char) (l : Text), IsInt n → c.isDigit = false → atoi (decInt n ++ c :: l) = .ok n := by
  refine ⟨fun c l h => ?_, fun n c l hn hc => by unfold IsInt at hn; rw [atoi_dec (by simpa using hc), if_pos hn]⟩
  have range : 65 ≤ c.toNat := by
    simp only [Char.isAlpha, Char.isUpper, Char.isLower, Bool.or_eq_true, Bool.and_eq_true, decide_eq_true_eq, ge_iff_le, UInt32.le_iff_toNat_le] at h
    rcases h with h | h
    · exact h.1
    · exact le_trans (by decide) h.1
  have hd : c.isDigit = false := by
    simp only [Char.isDigit, Bool.and_eq_false_iff, decide_eq_false_iff_not, ge_iff_le, UInt32.le_iff_toNat_le]
    right
    show ¬ c.toNat ≤ 57
    omega
  have ne : ∀ d : Char, d.toNat < 65 → c ≠ d := fun d hd e => by rw [e] at range; omega
  have hs : isSpace c = false := by
    simp [isSpace, ne ' ' (by decide)]
    omega
  have d : (c :: l).dropWhile isSpace = c :: l := by rw [List.dropWhile_cons_of_neg (by simp [hs])]
  have hm : (some c == some '-') = false := by simp [ne '-' (by decide)]
  have hp : (some c == some '+') = false := by simp [ne '+' (by decide)]
  simp only [atoi, d, List.head?_cons, hm, hp, Bool.or_false, if_false, Bool.false_eq_true, List.takeWhile_cons, hd]
  rfl

/-- A command line, and one with a number that is none. -/
example : config "train".toList "test".toList ["train".toList, "data/".toList, decInt 32, decInt 10, decInt 3200, "model.bin".toList] =
      .ok ⟨false, "data/".toList ++ "train".toList, "data/".toList ++ "test".toList, 32, 10, 3200, "model.bin".toList⟩ ∧
    atoi ['x'] = .ok 0 := ⟨train_config (by unfold IsInt; omega) (by unfold IsInt; omega) (by unfold IsInt; omega) [], garbage_refuted.1 'x' [] (by decide)⟩

/-! ## Progress -/

noncomputable section

/-- The average of the first `t` losses. -/
def mean (losses : List ℝ) (t : ℕ) : ℝ := (losses.take t).sum / t

theorem epochFrom_eq {b f : ℤ} (hf : f ≠ 0) (hb : 0 ≤ b) (ls : List ℝ) : ∀ (iter : ℕ) (loss : ℝ), ((iter + ls.length : ℕ) : ℤ) * b ≤ 2147483647 →
    epochFrom b f iter loss ls = .ok (((List.range ls.length).filter fun k => f ∣ ((iter + k + 1 : ℕ) : ℤ) * b).map
      (fun k => (loss + (ls.take (k + 1)).sum) / (iter + k + 1 : ℕ)) ++ [(loss + ls.sum) / (iter + ls.length : ℕ)]) := by
  induction ls with
  | nil =>
    intro iter loss _
    simp [epochFrom]
  | cons l ls ih =>
    intro iter loss h
    have e : iter + (l :: ls).length = iter + 1 + ls.length := by simp only [List.length_cons]; omega
    rw [e] at h
    have h1 : ((iter + 1 : ℕ) : ℤ) * b ≤ 2147483647 := le_trans (mul_le_mul_of_nonneg_right (by push_cast; omega) hb) h
    have h0 : 0 ≤ ((iter + 1 : ℕ) : ℤ) * b := mul_nonneg (by positivity) hb
    have hfit : fitsInt (((iter + 1 : ℕ) : ℤ) * b) = true := by
      simp only [fitsInt, Bool.and_eq_true, decide_eq_true_eq]
      omega
    rw [epochFrom, hfit, if_neg (by simp), if_neg hf, ih (iter + 1) (loss + l) h]
    simp only [Out.bind_ok, Out.pure_def, Out.ok.injEq, List.length_cons, List.range_succ_eq_map, List.filter_cons, List.filter_map, List.sum_cons]
    have key : ((List.range ls.length).filter fun k => f ∣ ((iter + 1 + k + 1 : ℕ) : ℤ) * b).map
        (fun k => (loss + l + (ls.take (k + 1)).sum) / (iter + 1 + k + 1 : ℕ)) ++ [(loss + l + ls.sum) / (iter + 1 + ls.length : ℕ)] =
        (((List.range ls.length).filter ((fun k => decide (f ∣ ((iter + k + 1 : ℕ) : ℤ) * b)) ∘ Nat.succ)).map Nat.succ).map
        (fun k => (loss + ((l :: ls).take (k + 1)).sum) / (iter + k + 1 : ℕ)) ++ [(loss + (l + ls.sum)) / (iter + (ls.length + 1) : ℕ)] := by
      rw [List.map_map]
      have e1 : ∀ k, iter + 1 + k + 1 = iter + Nat.succ k + 1 := fun k => by omega
      have e2 : iter + 1 + ls.length = iter + (ls.length + 1) := by omega
      simp only [e1, e2, Function.comp_def, List.take_succ_cons, List.sum_cons, Nat.succ_eq_add_one, add_assoc loss l]
    rw [key]
    by_cases c : f ∣ ((iter + 1 : ℕ) : ℤ) * b
    · rw [if_pos (Int.tmod_eq_zero_of_dvd c), if_pos (by simpa using c)]
      simp
    · rw [if_neg fun h => c (Int.dvd_of_tmod_eq_zero h), if_neg (by simpa using c)]

/-- Numbers up to `n` that are multiples. -/
theorem multiples {m : ℕ} (hm : 0 < m) (n : ℕ) : ((List.range n).filter fun k => m ∣ k + 1) = (List.range (n / m)).map fun j => (j + 1) * m - 1 := by
  induction n with
  | zero => simp
  | succ n ih =>
    rw [List.range_succ, List.filter_append, ih, Nat.succ_div]
    by_cases c : m ∣ n + 1
    · rw [if_pos c, List.range_succ, List.map_append, List.filter_cons, if_pos (by simpa using c)]
      have h1 : (n + 1) / m = n / m + 1 := by rw [Nat.succ_div, if_pos c]
      have h2 : (n / m + 1) * m = n + 1 := by rw [← h1]; exact Nat.div_mul_cancel c
      simp [h2]
    · rw [if_neg c, List.filter_cons, if_neg (by simpa using c)]
      simp

/-- Every how many iterations something is printed. -/
def every (batch freq : ℤ) : ℕ := freq.natAbs / Int.gcd freq batch

/-- **C134, what is printed.** The average of the losses so far every `every batch freq` iterations, and at the end the average of all. -/
theorem progress {b f : ℤ} (hf : f ≠ 0) (hb : 0 < b) {losses : List ℝ} (h : (losses.length : ℤ) * b ≤ 2147483647) :
    epoch b f losses = .ok ((List.range (losses.length / every b f)).map (fun j => mean losses ((j + 1) * every b f)) ++ [mean losses losses.length]) := by
  have hg : 0 < Int.gcd f b := Int.gcd_pos_of_ne_zero_left _ hf
  have hm : 0 < every b f := Nat.div_pos (Nat.le_of_dvd (Int.natAbs_pos.2 hf) (Int.gcd_dvd_natAbs_left _ _)) hg
  have hd : ∀ k : ℕ, f ∣ ((0 + k + 1 : ℕ) : ℤ) * b ↔ every b f ∣ k + 1 := fun k => by
    rw [← Int.natAbs_dvd_natAbs, Int.natAbs_mul, Int.natAbs_natCast, zero_add, every, Int.gcd_def]
    rw [Int.gcd_def] at hg
    have cop := Nat.coprime_div_gcd_div_gcd hg
    obtain ⟨x, hx⟩ := Nat.gcd_dvd_left f.natAbs b.natAbs
    obtain ⟨y, hy⟩ := Nat.gcd_dvd_right f.natAbs b.natAbs
    obtain ⟨g, hgd⟩ : ∃ g, g = Nat.gcd f.natAbs b.natAbs := ⟨_, rfl⟩
    rw [← hgd] at hx hy cop hg ⊢
    rw [hx, hy, Nat.mul_div_cancel_left _ hg, Nat.mul_div_cancel_left _ hg] at cop
    rw [hx, hy, Nat.mul_div_cancel_left _ hg]
    constructor
    · intro hdv
      rw [mul_left_comm] at hdv
      exact cop.dvd_of_dvd_mul_right (Nat.dvd_of_mul_dvd_mul_left hg hdv)
    · intro hdv
      rw [mul_left_comm]
      exact mul_dvd_mul_left g (hdv.mul_right y)
  rw [epoch, epochFrom_eq hf hb.le losses 0 0 (by simpa using h)]
  rw [List.filter_congr (q := fun k => decide (every b f ∣ k + 1)) fun k _ => decide_eq_decide.2 (hd k)]
  simp only [multiples hm, List.map_map, Function.comp_def, zero_add, Out.ok.injEq]
  have e : ∀ j, (j + 1) * every b f - 1 + 1 = (j + 1) * every b f := fun j => by
    have : 0 < (j + 1) * every b f := by positivity
    omega
  simp only [e, mean, List.take_length]

/-- **C134, multiples of the batch size.** If `freq` is the size of `m` batches, the average is printed after each `freq` samples. -/
theorem progress_partial {b : ℤ} {m : ℕ} (hm : 0 < m) (hb : 0 < b) {losses : List ℝ} (h : (losses.length : ℤ) * b ≤ 2147483647) :
    epoch b (m * b) losses = .ok ((List.range (losses.length / m)).map (fun j => mean losses ((j + 1) * m)) ++ [mean losses losses.length]) := by
  have hf : (m : ℤ) * b ≠ 0 := (mul_pos (by exact_mod_cast hm) hb).ne'
  have e : every b (m * b) = m := by
    rw [every, Int.gcd_def, Int.natAbs_mul, Int.natAbs_natCast, Nat.gcd_mul_left_left, Nat.mul_div_cancel _ (Int.natAbs_pos.2 hb.ne')]
  rw [progress hf hb h, e]

/-- **C134, refuted: other numbers.** If `freq` and the batch size have no common divisor, nothing is printed before as many iterations, not
samples, are done. -/
theorem progress_refuted {b f : ℤ} (hf : 0 < f) (hb : 0 < b) (hc : Int.gcd f b = 1) {losses : List ℝ} (h : (losses.length : ℤ) * b ≤ 2147483647)
    (hl : (losses.length : ℤ) < f) : epoch b f losses = .ok [mean losses losses.length] := by
  have e : losses.length / every b f = 0 := by
    rw [every, hc, Nat.div_one, Nat.div_eq_of_lt]
    omega
  rw [progress hf.ne' hb h, e]
  rfl

/-- **C134, refuted: 0** is not "never", but undefined in the first iteration. -/
theorem progress_zero {b : ℤ} (hb : 0 ≤ b) (h : b ≤ 2147483647) (l : ℝ) (losses : List ℝ) : epoch b 0 (l :: losses) = .ub .divZero := by
  have hfit : fitsInt (((0 + 1 : ℕ) : ℤ) * b) = true := by
    simp only [fitsInt, Bool.and_eq_true, decide_eq_true_eq]
    push_cast
    omega
  rw [epoch, epochFrom, hfit]
  simp

/-- **C134, refuted: long epochs.** An epoch of 2^31 or more samples is undefined behaviour. -/
theorem progress_long {b f : ℤ} (hb : 0 < b) {losses : List ℝ} (h : 2147483647 < (losses.length : ℤ) * b) : ∃ u, epoch b f losses = .ub u := by
  have key : ∀ (ls : List ℝ) (iter : ℕ) (loss : ℝ), (iter : ℤ) * b ≤ 2147483647 → 2147483647 < ((iter + ls.length : ℕ) : ℤ) * b →
      ∃ u, epochFrom b f iter loss ls = .ub u := by
    intro ls
    induction ls with
    | nil => intro iter loss h1 h2; simp only [List.length_nil, add_zero] at h2; omega
    | cons l ls ih =>
      intro iter loss h1 h2
      rw [epochFrom]
      by_cases c : fitsInt (((iter + 1 : ℕ) : ℤ) * b) = true
      · rw [c, if_neg (by simp)]
        by_cases d : f = 0
        · exact ⟨_, if_pos d⟩
        · rw [if_neg d]
          have e : iter + (l :: ls).length = iter + 1 + ls.length := by simp only [List.length_cons]; omega
          rw [e] at h2
          simp only [fitsInt, Bool.and_eq_true, decide_eq_true_eq] at c
          obtain ⟨u, hu⟩ := ih (iter + 1) (loss + l) c.2 h2
          exact ⟨u, by rw [hu]; rfl⟩
      · exact ⟨_, if_pos (by simpa using c)⟩
  exact key losses 0 0 (by simp) (by simpa using h)

/-- Batches of 32 and four losses: with `freq = 64` averages are printed after the second and the fourth, with `freq = 100` only at the end. -/
example (a b c d : ℝ) : epoch 32 64 [a, b, c, d] = .ok [(a + b) / 2, (a + b + c + d) / 4, (a + b + c + d) / 4] ∧
    epoch 32 100 [a, b, c, d] = .ok [(a + b + c + d) / 4] := by
  have e1 := progress_partial (b := 32) (m := 2) (by norm_num) (by norm_num) (losses := [a, b, c, d]) (by norm_num)
  have e2 := progress (b := 32) (f := 100) (by norm_num) (by norm_num) (losses := [a, b, c, d]) (by norm_num)
  have ev : every 32 100 = 25 := by decide
  rw [ev] at e2
  norm_num at e1 e2
  rw [e1, e2]
  simp [mean, List.range_succ, ← add_assoc]
  norm_num

end

end DW.Props.ProgressP
