import Verif.Spec.History
import Verif.Spec.Norm
/-!
# Running statistics

What the running statistics of a batch normalisation layer are averages of.
-/

set_option autoImplicit false

namespace DW.Spec

open DW

noncomputable section

/-- The exponential moving average of `s 0`, `s 1`, … after `k` of them: each new one counts `1 - alpha`. -/
def movingAverage (alpha start : ℝ) (s : Nat → ℝ) : Nat → ℝ
  | 0 => start
  | k + 1 => movingAverage alpha start s k * alpha + s k * (1 - alpha)

/-- In state `w` the tensors `running_mean` and `running_var` of the layer that computes `x` have the elements `mu` and `var`. -/
def RunningStats (e : Expr) (m : Model) (w : World) (x : Nat) {n : Nat} (mu var : Fin n → ℝ) : Prop :=
  ∃ b l, w.backend = some b ∧ layerAt e m b x = some l ∧ l.buffers = List.ofFn mu ++ List.ofFn var

/-- Element `(i, j)` of a tensor of shape `{B, n}`. -/
def entry2 {s : Shape} {B n : Nat} (h : s = [(B : Int), n]) (u : Elems s) (i : Fin B) (j : Fin n) : ℝ :=
  arr (matE (show size s = B * n by rw [h]; exact size_mat B n)) u (i, j)

/-- Element `(i, c, y, x)` of a tensor of shape `{N, C, H, W}`. -/
def entry4 {s : Shape} {N C H W : Nat} (h : s = [(N : Int), C, H, W]) (u : Elems s) (i : Fin N) (c : Fin C) (y : Fin H) (x : Fin W) : ℝ :=
  arr (imgE (show size s = N * (C * (H * W)) by rw [h]; exact size_img N C H W)) u (i, c, y, x)

/-- The layer that computes `x` is a batch normalisation layer with `n` features and this `alpha`, and if all placeholders have
the values `v` then `mu v` and `var v` are the means and the variances of the features of its argument: over the samples of the
batch for `BatchNorm1D`, over samples and positions for `BatchNorm2D`. -/
inductive BatchStats (e : Expr) (x : Nat) : F32 → (n : Nat) → (Vals e → Fin n → ℝ) → (Vals e → Fin n → ℝ) → Prop
  | norm1d {c a B n : Nat} {eps alpha : F32} : e.callOf x = some c → (infoOf e (e.callInfo c)).op = .batchNorm1D eps alpha →
    e.argsOf x = [a] → (h : phShape e a = [(B : Int), n]) → BatchStats e x alpha n (fun v j => mean fun i => entry2 h (v a) i j)
      fun v j => variance fun i => entry2 h (v a) i j
  | norm2d {c a N C H W : Nat} {eps alpha : F32} : e.callOf x = some c → (infoOf e (e.callInfo c)).op = .batchNorm2D eps alpha →
    e.argsOf x = [a] → (h : phShape e a = [(N : Int), C, H, W]) →
    BatchStats e x alpha C (fun v c => mean fun p : Fin N × Fin H × Fin W => entry4 h (v a) p.1 c p.2.1 p.2.2)
      fun v c => variance fun p : Fin N × Fin H × Fin W => entry4 h (v a) p.1 c p.2.1 p.2.2

/-- From state `w` to state `w'` there were `d` rounds of training, in which the placeholders had the values `v 0`, `v 1`, …: all
running statistics have become the moving averages of the statistics of these batches. -/
def Averaged (e : Expr) (m : Model) (real : F32 → ℝ) (v : Nat → Vals e) (d : Nat) (w w' : World) : Prop :=
  ∀ x ∈ dataOf m, ∀ (alpha : F32) (n : Nat) (mu var : Vals e → Fin n → ℝ), BatchStats e x alpha n mu var →
    ∀ mu₀ var₀ : Fin n → ℝ, RunningStats e m w x mu₀ var₀ →
      RunningStats e m w' x (fun j => movingAverage (real alpha) (mu₀ j) (fun k => mu (v k) j) d)
        fun j => movingAverage (real alpha) (var₀ j) (fun k => var (v k) j) d

end

end DW.Spec
