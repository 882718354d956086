import Verif.Model.IntArith
import Verif.Spec.Int32
import Verif.Lemmas.Tensor
import Mathlib.Tactic.Linarith
import Mathlib.Tactic.Ring
import Mathlib.Tactic.NormNum
import Mathlib.Tactic.Positivity
/-! # Lemmas on 32-bit integers -/

set_option autoImplicit false

namespace DW.I32

open Tensor (fitsInt accProd)

theorem chk_ok {n : Int} (h : -2147483648 ≤ n) (h' : n ≤ 2147483647) : chk n = .ok n := by
  simp [chk, fitsInt, h, h']

theorem chk_ub {n : Int} (h : 2147483647 < n) : chk n = .ub .overflow := by
  have : ¬ n ≤ 2147483647 := by omega
  simp [chk, fitsInt, this]

theorem mul_ok {x y : Nat} (h : x * y ≤ 2147483647) : mul x y = .ok ((x * y : Nat) : Int) := by
  unfold mul
  rw [show (x : Int) * y = ((x * y : Nat) : Int) by push_cast; ring]
  exact chk_ok (by omega) (by omega)

theorem mul_ub {x y : Nat} (h : 2147483647 < x * y) : mul x y = .ub .overflow := by
  unfold mul
  rw [show (x : Int) * y = ((x * y : Nat) : Int) by push_cast; ring]
  exact chk_ub (by omega)

theorem mul3_ok {x y z : Nat} (hz : 0 < z) (h : x * y * z ≤ 2147483647) : mul3 x y z = .ok ((x * y * z : Nat) : Int) := by
  unfold mul3
  rw [mul_ok ((Nat.le_mul_of_pos_right _ hz).trans h)]
  exact mul_ok h

theorem mul3_ub {x y z : Nat} (h : 2147483647 < x * y * z) : mul3 x y z = .ub .overflow := by
  unfold mul3
  by_cases hxy : x * y ≤ 2147483647
  · rw [mul_ok hxy]; exact mul_ub h
  · rw [mul_ub (by omega)]; rfl

theorem forM_ok {α : Type} {f : α → Out Unit} : ∀ {l : List α}, (∀ x ∈ l, f x = .ok ()) → l.forM f = .ok ()
  | [], _ => rfl
  | a :: l, h => by
    rw [List.forM_eq_forM, List.forM_cons, h a (by simp), ← List.forM_eq_forM]
    exact forM_ok fun x hx => h x (by simp [hx])

theorem forM_ub {α : Type} {f : α → Out Unit} {u : Ub} {l : List α} (hl : l ≠ []) (h : ∀ x ∈ l, f x = .ub u) :
    l.forM f = .ub u := by
  cases l with
  | nil => exact absurd rfl hl
  | cons a l => rw [List.forM_eq_forM, List.forM_cons, h a (by simp)]; rfl

theorem walk_ok {s : Int} {body : Int → Out Unit} : ∀ {n : Nat} {x : Int}, (∀ y, body y = .ok ()) → 0 ≤ s →
    -2147483648 ≤ x → x + n * s ≤ 2147483647 → walk s body x n = .ok ()
  | 0, _, _, _, _, _ => rfl
  | n + 1, x, hb, hs, hx, h => by
    have h' : x + s + n * s ≤ 2147483647 := by push_cast at h; linarith
    have hn : 0 ≤ (n : Int) * s := by positivity
    have : add x s = .ok (x + s) := chk_ok (by omega) (by omega)
    simp only [walk, hb, this, Out.bind_ok]
    exact walk_ok hb hs (by omega) h'

/-- `accProd` of positive dimensions. -/
theorem accProd_pos : ∀ {l : List Nat} {i : Nat}, (∀ d ∈ l, 0 < d) → i * l.prod ≤ 2147483647 →
    accProd (l.map fun d : Nat => (d : Int)) i = .ok ((i * l.prod : Nat) : Int)
  | [], i, _, _ => by simp [accProd]
  | d :: l, i, hp, h => by
    have hl : 0 < l.prod := Nat.pos_of_ne_zero (List.prod_ne_zero fun hm => by have := hp 0 (by simp [hm]); omega)
    rw [List.prod_cons, ← mul_assoc] at h
    have hd : i * d ≤ 2147483647 := (Nat.le_mul_of_pos_right _ hl).trans h
    have ih := accProd_pos (i := i * d) (fun x hx => hp x (by simp [hx])) h
    have hf : fitsInt ((i : Int) * d) = true := by
      have : ((i * d : Nat) : Int) ≤ 2147483647 := by exact_mod_cast hd
      push_cast at this
      have h0 : 0 ≤ (i : Int) * d := by positivity
      simp [fitsInt, this]; omega
    simp only [List.map_cons, accProd, hf, if_true]
    rw [List.prod_cons, ← mul_assoc, ← ih]
    push_cast
    rfl

theorem accProd_pos_ub : ∀ {l : List Nat} {i : Nat}, (∀ d ∈ l, 0 < d) → i ≤ 2147483647 → 2147483647 < i * l.prod →
    accProd (l.map fun d : Nat => (d : Int)) i = .ub .overflow
  | [], i, _, hi, h => by simp at h; omega
  | d :: l, i, hp, hi, h => by
    rw [List.prod_cons, ← mul_assoc] at h
    by_cases hd : i * d ≤ 2147483647
    · have ih := accProd_pos_ub (i := i * d) (fun x hx => hp x (by simp [hx])) hd h
      have hf : fitsInt ((i : Int) * d) = true := by
        have : ((i * d : Nat) : Int) ≤ 2147483647 := by exact_mod_cast hd
        push_cast at this
        have h0 : 0 ≤ (i : Int) * d := by positivity
        simp [fitsInt, this]; omega
      simp only [List.map_cons, accProd, hf, if_true]
      rw [← ih]; push_cast; rfl
    · have hf : fitsInt ((i : Int) * d) = false := by
        have : 2147483647 < ((i * d : Nat) : Int) := by omega
        push_cast at this
        simp [fitsInt]; intro; omega
      simp [accProd, hf]

open DW.Spec

variable {n k p s out : Nat}

theorem _root_.DW.Spec.Win.div (h : Win n k p s out) : ((n : Int) + 2 * p - k).tdiv s + 1 = out := by
  have h1 := h.fits
  rw [show (n : Int) + 2 * p - k = ((n + 2 * p - k : Nat) : Int) by omega, ← Int.ofNat_tdiv, h.out]
  push_cast; rfl

theorem _root_.DW.Spec.Win.out_mul (h : Win n k p s out) : (k : Int) - 1 - p + out * s ≤ 2147483647 := by
  have h1 := Nat.div_mul_le_self (n + 2 * p - k) s
  have h2 := h.small
  have h3 := h.fits
  have h5 : out * s = (n + 2 * p - k) / s * s + s := by rw [h.out]; ring
  have h6 : ((out * s : Nat) : Int) ≤ n + 2 * p - k + s := by omega
  push_cast at h6
  omega

theorem windowOut_ok (h : Win n k p s out) : windowOut n k p s = .ok out := by
  have h1 := h.small
  have h2 := h.fits
  have h3 := h.stride
  have hd := h.div
  have ho : (out : Int) ≤ 2147483647 := by
    have := Nat.div_le_self (n + 2 * p - k) s
    have := h.out
    have := h.kernel
    omega
  unfold windowOut mul add sub I32.div
  rw [chk_ok (by omega) (by omega), Out.bind_ok, chk_ok (by omega) (by omega), Out.bind_ok, chk_ok (by omega) (by omega), Out.bind_ok,
    if_neg (by omega), chk_ok (by omega) (by omega), Out.bind_ok, hd, chk_ok (by omega) (by omega)]

theorem colOut_ok (h : Win n k p s out) : colOut n k p s = .ok out := by
  have h1 := h.small
  have h2 := h.fits
  have h3 := h.stride
  have h4 := h.kernel
  have hd := h.div
  have ho : (out : Int) ≤ 2147483647 := by
    have := Nat.div_le_self (n + 2 * p - k) s
    have := h.out
    omega
  unfold colOut mul add sub I32.div
  rw [chk_ok (by omega) (by omega), Out.bind_ok, chk_ok (by omega) (by omega), Out.bind_ok, chk_ok (by omega) (by omega), Out.bind_ok,
    one_mul, chk_ok (by omega) (by omega), Out.bind_ok, chk_ok (by omega) (by omega), Out.bind_ok, chk_ok (by omega) (by omega),
    Out.bind_ok, if_neg (by omega), show (n : Int) + 2 * p - (k - 1 + 1) = n + 2 * p - k by ring, chk_ok (by omega) (by omega),
    Out.bind_ok, hd, chk_ok (by omega) (by omega)]

variable {h w kh kw ph pw sh sw hOut wOut ch : Nat}

theorem planeLoops_ok (hh : Win h kh ph sh hOut) (hw : Win w kw pw sw wOut) (hs : h * w ≤ 2147483647) {i j : Nat} (hi : i < kh)
    (hj : j < kw) : planeLoops h w hOut wOut ⟨kh, kw, ph, pw, sh, sw⟩ i j = .ok () := by
  have a1 := hh.small
  have a2 := hh.fits
  have a3 := hh.out_mul
  have b1 := hw.small
  have b2 := hw.fits
  have b3 := hw.out_mul
  unfold planeLoops mul sub
  simp only [mul_one]
  rw [chk_ok (by omega) (by omega), Out.bind_ok, chk_ok (by omega) (by omega), Out.bind_ok]
  refine walk_ok (fun row => ?_) (by positivity) (by omega) (by rw [Int.toNat_natCast]; omega)
  split_ifs with hr
  · rw [chk_ok (by omega) (by omega), Out.bind_ok, chk_ok (by omega) (by omega), Out.bind_ok]
    refine walk_ok (fun col => ?_) (by positivity) (by omega) (by rw [Int.toNat_natCast]; omega)
    split_ifs with hc
    · have h0 : 0 ≤ row * (w : Int) := mul_nonneg hr.1 (by positivity)
      have h1 : row * (w : Int) + w ≤ (h : Int) * w := by nlinarith [hr.2]
      have h2 : (h : Int) * w ≤ 2147483647 := by exact_mod_cast hs
      unfold add
      rw [chk_ok (by omega) (by omega), Out.bind_ok, chk_ok (by omega) (by omega), Out.bind_ok]
    · rfl
  · rfl

theorem cols_ok (hh : Win h kh ph sh hOut) (hw : Win w kw pw sw wOut) (hs : h * w ≤ 2147483647) :
    cols ch h w ⟨kh, kw, ph, pw, sh, sw⟩ = .ok () := by
  unfold cols
  rw [colOut_ok hh, Out.bind_ok, colOut_ok hw, Out.bind_ok]
  refine forM_ok fun _ _ => ?_
  rw [mul_ok hs, forM_ok, Out.bind_ok, Out.bind_ok]
  intro i hi
  refine forM_ok fun j hj => planeLoops_ok hh hw hs ?_ ?_
  · simpa using hi
  · simpa using hj

end DW.I32
