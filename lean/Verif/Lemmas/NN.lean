import Verif.Model.NN
import Verif.Spec.NN
import Verif.Lemmas.Tensor
/-! Helper lemmas about layers and expressions. -/

set_option autoImplicit false

namespace DW

open DW.Spec

theorem windowStarts_eq {size kernel padding stride : ℕ} (hs : 0 < stride)
    (hk : kernel ≤ size + 2 * padding) :
    windowStarts size kernel padding stride =
      (Finset.range ((size + 2 * padding - kernel) / stride + 1)).image (· * stride) := by
  ext x
  simp only [windowStarts, Finset.mem_filter, Finset.mem_range, Finset.mem_image]
  constructor
  · rintro ⟨-, ⟨c, rfl⟩, h2⟩
    refine ⟨c, ?_, Nat.mul_comm _ _⟩
    have : c ≤ (size + 2 * padding - kernel) / stride := by
      rw [Nat.le_div_iff_mul_le hs, Nat.mul_comm]; omega
    omega
  · rintro ⟨c, hc, rfl⟩
    have : c ≤ (size + 2 * padding - kernel) / stride := by omega
    rw [Nat.le_div_iff_mul_le hs] at this
    exact ⟨by omega, Dvd.intro_left c rfl, by omega⟩

theorem windowCount_eq {size kernel padding stride : ℕ} (hs : 0 < stride)
    (hk : kernel ≤ size + 2 * padding) :
    windowCount size kernel padding stride = (size + 2 * padding - kernel) / stride + 1 := by
  unfold windowCount
  rw [windowStarts_eq hs hk, Finset.card_image_of_injective, Finset.card_range]
  intro a b h
  exact Nat.eq_of_mul_eq_mul_right hs h

theorem windowCount_zero {size kernel padding stride : ℕ} (hk : size + 2 * padding < kernel) :
    windowCount size kernel padding stride = 0 := by
  unfold windowCount windowStarts
  rw [Finset.card_eq_zero, Finset.filter_eq_empty_iff]
  intro x _ h
  omega

theorem windowOut_eq {size kernel padding stride : ℕ} (hs : 0 < stride)
    (hk : kernel ≤ size + 2 * padding) :
    windowOut size kernel padding stride = .ok (windowCount size kernel padding stride : Int) := by
  rw [windowCount_eq hs hk]
  have h1 : (stride : Int) ≠ 0 := by omega
  have h2 : ((size : Int) + 2 * padding - kernel) = ((size + 2 * padding - kernel : ℕ) : Int) := by omega
  simp only [windowOut, cdiv, h1, if_false, Out.bind_ok, Out.pure_def, h2]
  rw [Int.tdiv_eq_ediv_of_nonneg (by omega)]
  norm_cast

/-- What `apply` does, given that the arguments exist. -/
theorem Expr.apply_eq {e : Expr} {i : Nat} {inf : InfoImpl} {ins : List Nat} {shs : List Shape}
    (hi : e.infos[i]? = some inf) (hn : inf.op.numIn ≤ ins.length)
    (hs : e.shapes (ins.take inf.op.numIn) = .ok shs) :
    Expr.apply i ins e = (do
      Expr.initLayer i shs
      let out ← M.lift (outShape inf.op shs)
      let e ← M.get
      M.set { e with
        calls := e.calls ++ [⟨i, ins.take inf.op.numIn⟩]
        phs := e.phs ++ [⟨out, some e.calls.length⟩] }
      pure e.phs.length : M Expr Nat) e := by
  have hargs : ((List.range inf.op.numIn).mapM fun k => Out.idx ins k) = Out.ok (ins.take inf.op.numIn) := by
    have hcases : inf.op.numIn = 1 ∨ inf.op.numIn = 2 := by cases inf.op <;> simp [Op.numIn]
    rcases hcases with h | h <;> rw [h] at hn ⊢
    · match ins, hn with
      | a :: rest, _ => rfl
    · match ins, hn with
      | a :: b :: rest, _ => rfl
  have hidx : Out.idx e.infos i = .ok inf := by simp [Out.idx, hi]
  simp only [Expr.apply, M.bind_apply, M.get_apply, M.lift_apply, hidx, hargs, hs]

end DW
