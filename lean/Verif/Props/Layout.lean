import Verif.Lemmas.Layout
/-!
# Layout conversions (C44)

`flat4 X` are the elements of a four-dimensional tensor in row-major order.
-/

set_option autoImplicit false

namespace DW.Props.LayoutP

open DW.Spec DW.MatL DW.FlatL DW.LayoutL

variable {N C H W : Nat}

/-- **C44**: `NCHW2NHWC` stores `input[n][c][h][w]` at `output[n][h][w][c]`, whatever the output held. -/
theorem nchw2nhwc_transposes (X : Fin N → Fin C → Fin H → Fin W → ℝ) (old : List ℝ)
    (ho : old.length = N * (H * (W * C))) :
    nchw2nhwc ⟨[N, C, H, W], flat4 X⟩ ⟨[N, H, W, C], old⟩ = .ok (flat4 fun n h w c => X n c h w) := by
  have := nchw2nhwc_eq X [] ⟨[N, H, W, C], old⟩ (by rw [ho])
  simpa [← ho] using this

/-- **C44**: `NHWC2NCHW` stores `input[n][h][w][c]` at `output[n][c][h][w]`. -/
theorem nhwc2nchw_transposes (Y : Fin N → Fin H → Fin W → Fin C → ℝ) (old : List ℝ)
    (ho : old.length = N * (C * (H * W))) :
    nhwc2nchw ⟨[N, H, W, C], flat4 Y⟩ ⟨[N, C, H, W], old⟩ = .ok (flat4 fun n c h w => Y n h w c) := by
  have := nhwc2nchw_eq Y [] [N, H, W, C] old (by rw [ho])
  simpa [← ho] using this

/-- **C44**: converting to NHWC and back gives the original tensor. -/
theorem nchw_round_trip (vals old old' : List ℝ) (hv : vals.length = N * (C * (H * W)))
    (ho : old.length = N * (H * (W * C))) (ho' : old'.length = N * (C * (H * W))) :
    (do let y ← nchw2nhwc ⟨[N, C, H, W], vals⟩ ⟨[N, H, W, C], old⟩
        nhwc2nchw ⟨[N, H, W, C], y⟩ ⟨[N, C, H, W], old'⟩) = .ok vals := by
  obtain ⟨X, rfl⟩ := exists_flat4 vals hv
  rw [nchw2nhwc_transposes X old ho, Out.bind_ok, nhwc2nchw_transposes _ old' ho']

/-- **C44**: converting to NCHW and back gives the original tensor. -/
theorem nhwc_round_trip (vals old old' : List ℝ) (hv : vals.length = N * (H * (W * C)))
    (ho : old.length = N * (C * (H * W))) (ho' : old'.length = N * (H * (W * C))) :
    (do let y ← nhwc2nchw ⟨[N, H, W, C], vals⟩ ⟨[N, C, H, W], old⟩
        nchw2nhwc ⟨[N, C, H, W], y⟩ ⟨[N, H, W, C], old'⟩) = .ok vals := by
  obtain ⟨X, rfl⟩ := exists_flat4 vals hv
  rw [nhwc2nchw_transposes X old ho, Out.bind_ok, nchw2nhwc_transposes _ old' ho']

/-- **C44**: the loops write every position of the output exactly once. -/
theorem nhwcIdx_perm : (nhwcIdx N C H W).Perm (List.range (N * C * H * W)) := by
  rw [nhwcIdx_eq]
  refine flat4_perm _ (by ring) (fun n c h w n' c' h' w' e => ?_) (fun n c h w => ?_)
  · have := Fin.ext e
    simp only [pair_inj] at this
    exact ⟨this.1, this.2.2.2, this.2.1, this.2.2.1⟩
  · refine lt_of_lt_of_eq (Fin.is_lt _) (by ring)

/-- **C44**: the loops write every position of the output exactly once. -/
theorem nchwIdx_perm : (nchwIdx N C H W).Perm (List.range (N * C * H * W)) := by
  rw [nchwIdx_eq]
  refine flat4_perm _ (by ring) (fun n h w c n' h' w' c' e => ?_) (fun n c h w => ?_)
  · have := Fin.ext e
    simp only [pair_inj] at this
    exact ⟨this.1, this.2.2.1, this.2.2.2, this.2.1⟩
  · refine lt_of_lt_of_eq (Fin.is_lt _) (by ring)

/-- One image of two channels, 1 × 3 pixels. -/
example : nchw2nhwc ⟨[1, 2, 1, 3], flat4 (a := 1) (b := 2) (c := 1) (d := 3) fun _ c _ w => 10 * c.val + w.val⟩
    ⟨[1, 1, 3, 2], [0, 0, 0, 0, 0, 0]⟩ =
    .ok (flat4 (a := 1) (b := 1) (c := 3) (d := 2) fun _ _ w c => 10 * (c.val : ℝ) + w.val) :=
  nchw2nhwc_transposes (N := 1) (C := 2) (H := 1) (W := 3) _ _ (by simp)

end DW.Props.LayoutP
