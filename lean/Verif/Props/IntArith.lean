import Verif.Lemmas.IntArith
import Verif.Props.Conv
/-!
# Integer overflow (C101)

`I32.convForward` etc. are the `int` computations of the layers, one by one: `.ok ()` says that none overflows and none divides by
zero. The shapes are those a layer meets: input, output and parameters exist as tensors (`Counted`) and the output counts the window
positions (`Win`).
-/

set_option autoImplicit false

namespace DW.Props.IntArithP

open DW.Spec DW.I32 DW.Props.ConvP DW.FlatL DW.LayoutL DW.Im2colL DW.ConvL DW.NormL

variable {N C O h w kh kw ph pw sh sw hOut wOut : Nat}

/-! ## Applying layers -/

/-- The shape of the output of a convolution or pooling. -/
theorem window_shape (hh : Win h kh ph sh hOut) : I32.windowOut h kh ph sh = .ok hOut := windowOut_ok hh

/-! ## Convolution -/

section convolution

variable (hh : Win h kh ph sh hOut) (hw : Win w kw pw sw wOut) (hi : Counted [N, C, h, w]) (ho : Counted [N, O, hOut, wOut])
  (hk : Counted [O, C, kh, kw])

include hi in
theorem plane_fits : h * w ≤ 2147483647 ∧ C * h * w ≤ 2147483647 ∧ N * C ≤ 2147483647 ∧ N * h * w ≤ 2147483647 := by
  obtain ⟨hp, hf⟩ := hi
  simp only [List.mem_cons, List.not_mem_nil, or_false, forall_eq_or_imp, forall_eq] at hp
  obtain ⟨h1, h2, h3, h4⟩ := hp
  have e : [N, C, h, w].prod = N * (C * (h * w)) := by simp
  rw [e] at hf
  refine ⟨?_, ?_, ?_, ?_⟩
  · refine le_trans ?_ hf
    exact (Nat.le_mul_of_pos_left _ h2).trans (Nat.le_mul_of_pos_left _ h1)
  · rw [mul_assoc]
    exact (Nat.le_mul_of_pos_left _ h1).trans hf
  · rw [← mul_assoc] at hf
    exact (Nat.le_mul_of_pos_right _ (Nat.mul_pos h3 h4)).trans hf
  · refine le_trans ?_ hf
    rw [mul_assoc]
    exact Nat.mul_le_mul_left _ (Nat.le_mul_of_pos_left _ h2)

include hk in
theorem rows_fit : C * kh * kw ≤ 2147483647 := (plane_fits hk).2.1

include hh hw hi in
/-- The part of the passes that does not depend on the column buffer. -/
theorem image_ok : Tensor.accProd [1, (C : Int), h, w] = .ok ((C * h * w : Nat) : Int) ∧
    I32.cols C h w ⟨kh, kw, ph, pw, sh, sw⟩ = .ok () := by
  refine ⟨?_, cols_ok hh hw (plane_fits hi).1⟩
  have hp := hi.1
  simp only [List.mem_cons, List.not_mem_nil, or_false, forall_eq_or_imp, forall_eq] at hp
  have := accProd_pos (l := [1, C, h, w]) (i := 1) (by simp; omega) (by
    have := (plane_fits hi).2.1
    simpa [mul_assoc] using this)
  simpa [mul_assoc] using this

include hh hw hi ho hk in
/-- **C101**, forward pass of a convolution: no `int` overflows if and only if the elements of the column buffer of the whole batch
can be counted. -/
theorem convolution_forward_partial (had : Nat) :
    I32.convForward had N C h w O hOut wOut ⟨kh, kw, ph, pw, sh, sw⟩ = .ok () ↔ N * (C * kh * kw) * (hOut * wOut) ≤ 2147483647 := by
  have hp := hi.1
  have hq := ho.1
  simp only [List.mem_cons, List.not_mem_nil, or_false, forall_eq_or_imp, forall_eq] at hp hq
  obtain ⟨q1, q2, q3, q4⟩ := hq
  have hrows := mul3_ok (x := C) (y := kh) (z := kw) hw.kernel (rows_fit hk)
  have hcols := mul_ok (plane_fits ho).1
  have hpos : 0 < hOut * wOut := Nat.mul_pos q3 q4
  unfold I32.convForward
  simp only [hrows, hcols, Out.bind_ok]
  constructor
  · intro hc
    by_contra hn
    rw [mul3_ub (by omega)] at hc
    simp at hc
  · intro hf
    have hn := mul3_ok hpos hf
    have ha : ∀ n : Nat, n ≤ 2147483647 → Tensor.accProd [(n : Int)] = .ok n := by
      intro n hn
      have : (n : Int) ≤ 2147483647 := by exact_mod_cast hn
      have h0 : (-2147483648 : Int) ≤ n := by omega
      simp [Tensor.accProd, Tensor.fitsInt, this, h0]
    have hbuf : Tensor.accProd [((C * kh * kw : Nat) : Int), ((hOut * wOut : Nat) : Int)] =
        .ok ((C * kh * kw * (hOut * wOut) : Nat) : Int) := by
      have := accProd_pos (l := [C * kh * kw, hOut * wOut]) (i := 1) (by
        simp only [List.mem_cons, List.not_mem_nil, or_false, forall_eq_or_imp, forall_eq]
        exact ⟨Nat.mul_pos (Nat.mul_pos hp.2.1 hh.kernel) hw.kernel, hpos⟩) (by
          rw [mul_assoc] at hf
          have := (Nat.le_mul_of_pos_left _ hp.1).trans hf
          simpa using this)
      simpa using this
    obtain ⟨himg, hcol⟩ := image_ok hh hw hi
    rw [hn]
    simp only [Out.bind_ok, ha _ hf, ite_self, mul3_ok hp.2.2.2 (plane_fits hi).2.1, mul3_ok q4 (plane_fits ho).2.1, himg, hbuf, hcol]
    exact forM_ok fun _ _ => rfl

include hh hw ho hk in
/-- Otherwise the behaviour is undefined. -/
theorem convolution_forward_overflow (had : Nat) (hf : 2147483647 < N * (C * kh * kw) * (hOut * wOut)) :
    I32.convForward had N C h w O hOut wOut ⟨kh, kw, ph, pw, sh, sw⟩ = .ub .overflow := by
  unfold I32.convForward
  simp only [mul3_ok (x := C) (y := kh) (z := kw) hw.kernel (rows_fit hk), mul_ok (plane_fits ho).1, Out.bind_ok, mul3_ub hf,
    Out.bind_ub]

include hh hw hi ho hk in
/-- **C101**, backward pass of a convolution: it is enough that the column buffer of one image can be counted. -/
theorem convolution_backward_partial :
    I32.convBackward N C h w O hOut wOut ⟨kh, kw, ph, pw, sh, sw⟩ = .ok () ↔ C * kh * kw * (hOut * wOut) ≤ 2147483647 := by
  have hp := hi.1
  have hq := ho.1
  simp only [List.mem_cons, List.not_mem_nil, or_false, forall_eq_or_imp, forall_eq] at hp hq
  obtain ⟨q1, q2, q3, q4⟩ := hq
  have hrows := mul3_ok (x := C) (y := kh) (z := kw) hw.kernel (rows_fit hk)
  have hcols := mul_ok (plane_fits ho).1
  have hpos : 0 < hOut * wOut := Nat.mul_pos q3 q4
  have hdims : ∀ d ∈ [C * kh * kw, hOut * wOut], 0 < d := by
    simp only [List.mem_cons, List.not_mem_nil, or_false, forall_eq_or_imp, forall_eq]
    exact ⟨Nat.mul_pos (Nat.mul_pos hp.2.1 hh.kernel) hw.kernel, hpos⟩
  unfold I32.convBackward
  simp only [hrows, hcols, Out.bind_ok, mul3_ok q4 (plane_fits ho).2.1]
  constructor
  · intro hc
    by_contra hn
    have hbuf : Tensor.accProd [((C * kh * kw : Nat) : Int), ((hOut * wOut : Nat) : Int)] = .ub .overflow := by
      have := accProd_pos_ub (l := [C * kh * kw, hOut * wOut]) (i := 1) hdims (by norm_num) (by simp; omega)
      simpa using this
    simp only [hbuf, Out.bind_ub] at hc
    rw [forM_ub (u := .overflow) (by
      intro hl
      have := congrArg List.length hl
      simp at this
      omega) (fun _ _ => rfl)] at hc
    simp at hc
  · intro hf
    have hbuf : Tensor.accProd [((C * kh * kw : Nat) : Int), ((hOut * wOut : Nat) : Int)] =
        .ok ((C * kh * kw * (hOut * wOut) : Nat) : Int) := by
      have := accProd_pos (l := [C * kh * kw, hOut * wOut]) (i := 1) hdims (by simpa using hf)
      simpa using this
    obtain ⟨himg, hcol⟩ := image_ok hh hw hi
    simp only [himg, hbuf, hcol, Out.bind_ok]
    rw [forM_ok fun _ _ => rfl]
    rfl

end convolution

/-- The forward pass needs more: where it does not overflow, the backward pass does not either. -/
theorem convolution_backward_of_forward (hh : Win h kh ph sh hOut) (hw : Win w kw pw sw wOut) (hi : Counted [N, C, h, w])
    (ho : Counted [N, O, hOut, wOut]) (hk : Counted [O, C, kh, kw]) {had : Nat}
    (hf : I32.convForward had N C h w O hOut wOut ⟨kh, kw, ph, pw, sh, sw⟩ = .ok ()) :
    I32.convBackward N C h w O hOut wOut ⟨kh, kw, ph, pw, sh, sw⟩ = .ok () := by
  rw [convolution_forward_partial hh hw hi ho hk, mul_assoc] at hf
  rw [convolution_backward_partial hh hw hi ho hk]
  exact (Nat.le_mul_of_pos_left _ (hi.1 N (by simp))).trans hf

/-- **C101** in full, for convolutions. -/
def ConvolutionsDoNotOverflow : Prop :=
  ∀ N C O h w kh kw ph pw sh sw hOut wOut : Nat, Win h kh ph sh hOut → Win w kw pw sw wOut → Counted [N, C, h, w] →
    Counted [N, O, hOut, wOut] → Counted [O, C, kh, kw] → I32.convForward 0 N C h w O hOut wOut ⟨kh, kw, ph, pw, sh, sw⟩ = .ok ()

/-- It is false: 128 pictures of 224×224 with 64 channels and a 3×3 kernel. -/
theorem overflow_refuted : ¬ ConvolutionsDoNotOverflow := by
  intro hall
  have hw : Win 224 3 1 1 224 := ⟨by norm_num, by norm_num, by norm_num, by norm_num, by norm_num⟩
  have hi : Counted [128, 64, 224, 224] := ⟨by simp, by norm_num⟩
  have hk : Counted [64, 64, 3, 3] := ⟨by simp, by norm_num⟩
  have := hall 128 64 64 224 224 3 3 1 1 1 1 224 224 hw hw hi hi hk
  rw [convolution_forward_partial hw hw hi hi hk] at this
  norm_num at this

/-- With 64 pictures nothing overflows. -/
example : I32.convForward 0 64 64 224 224 64 224 224 ⟨3, 3, 1, 1, 1, 1⟩ = .ok () :=
  (convolution_forward_partial (N := 64) (C := 64) (O := 64) (h := 224) (w := 224) (kh := 3) (kw := 3) (ph := 1) (pw := 1) (sh := 1)
    (sw := 1) (hOut := 224) (wOut := 224) ⟨by norm_num, by norm_num, by norm_num, by norm_num, by norm_num⟩
    ⟨by norm_num, by norm_num, by norm_num, by norm_num, by norm_num⟩ ⟨by simp, by norm_num⟩ ⟨by simp, by norm_num⟩
    ⟨by simp, by norm_num⟩ 0).2 (by norm_num)

/-- The layer as a whole: if the elements of the column buffer cannot be counted, a forward pass is undefined, whatever the values
are. (If they can, it is `ConvP.convolution_forward`.) -/
theorem convolution_undefined {a b : Axis} (ha : ConvAxis a) (hb : ConvAxis b) (W : Fin O → Fin C → Fin a.kernel → Fin b.kernel → ℝ)
    (bias : Fin O → ℝ) (gw gb : List ℝ) (buf : Buf) (junk : Nat → ℝ) (X : Fin N → Fin C → Fin a.size → Fin b.size → ℝ)
    (old : List ℝ) (hbuf : buf.vals.length ≤ 2147483647)
    (hf : 2147483647 < N * (C * a.kernel * b.kernel * (a.out * b.out))) :
    (layer W bias gw gb buf).forward junk [⟨[N, C, a.size, b.size], flat4 X⟩] [⟨[N, O, a.out, b.out], old⟩] = .ub .overflow := by
  have hf' : (2147483647 : Int) < (N : Int) * (C * a.kernel * b.kernel) * (a.out * b.out) := by
    have : (2147483647 : Int) < ((N * (C * a.kernel * b.kernel * (a.out * b.out)) : Nat) : Int) := by exact_mod_cast hf
    push_cast at this
    rw [mul_assoc]; exact this
  have hr : renew junk (decide ((buf.vals.length : Int) ≠ (N : Int) * (C * a.kernel * b.kernel) * (a.out * b.out))) buf
      [(N : Int) * (C * a.kernel * b.kernel) * (a.out * b.out)] = .ub .overflow := by
    have hne : (buf.vals.length : Int) ≠ (N : Int) * (C * a.kernel * b.kernel) * (a.out * b.out) := by
      have : (buf.vals.length : Int) ≤ 2147483647 := by exact_mod_cast hbuf
      omega
    have h0 : ¬ (N : Int) * (C * a.kernel * b.kernel) * (a.out * b.out) < 0 := by omega
    have h1 : ¬ (N : Int) * (C * a.kernel * b.kernel) * (a.out * b.out) ≤ 2147483647 := by omega
    unfold renew
    rw [if_pos (by simpa using hne)]
    simp [freshBuf, Tensor.hasNegative, Out.check, Tensor.accProd, Tensor.fitsInt, h0, h1]
  unfold ConvSt.forward
  have hv : (layer W bias gw gb buf).geo.validate = .ok () := validate_ok ha hb
  rw [hv]
  simp only [Out.bind_ok, dim, Out.idx, List.getElem?_cons_zero, List.getElem?_cons_succ]
  refine (congrArg (fun o => o >>= _) hr).trans ?_
  rfl

/-! ## Pooling -/

/-- **C101**, forward pass of max pooling: no `int` overflows if and only if the elements of the column buffer of one plane can be
counted. -/
theorem pooling_forward_partial (hh : Win h kh ph sh hOut) (hw : Win w kw pw sw wOut) (hi : Counted [N, C, h, w])
    (ho : Counted [N, C, hOut, wOut]) (had : Nat) :
    I32.poolForward had N C h w hOut wOut ⟨kh, kw, ph, pw, sh, sw⟩ = .ok () ↔ kh * kw * (hOut * wOut) ≤ 2147483647 := by
  have hp := hi.1
  have hq := ho.1
  simp only [List.mem_cons, List.not_mem_nil, or_false, forall_eq_or_imp, forall_eq] at hp hq
  obtain ⟨q1, q2, q3, q4⟩ := hq
  have hcols := mul_ok (plane_fits ho).1
  have hpos : 0 < hOut * wOut := Nat.mul_pos q3 q4
  have hidx : Tensor.accProd [(N : Int), C, hOut, wOut] = .ok (([N, C, hOut, wOut].prod : Nat) : Int) := by
    have := accProd_pos (i := 1) ho.1 (by simpa using ho.2)
    simpa using this
  unfold I32.poolForward
  rw [hidx, Out.bind_ok]
  by_cases hr : kh * kw ≤ 2147483647
  · simp only [mul_ok hr, hcols, Out.bind_ok]
    constructor
    · intro hc
      by_contra hn
      rw [mul_ub (by omega)] at hc
      simp at hc
    · intro hf
      have ha : Tensor.accProd [((kh * kw * (hOut * wOut) : Nat) : Int)] = .ok ((kh * kw * (hOut * wOut) : Nat) : Int) := by
        have : ((kh * kw * (hOut * wOut) : Nat) : Int) ≤ 2147483647 := by exact_mod_cast hf
        have h0 : (-2147483648 : Int) ≤ ((kh * kw * (hOut * wOut) : Nat) : Int) := by omega
        simp only [Tensor.accProd, Tensor.fitsInt, one_mul, this, h0, decide_true, Bool.and_self, if_true]
      have hi1 : Counted [1, 1, h, w] := ⟨by simp; omega, by simpa using (plane_fits hi).1⟩
      obtain ⟨himg, hcol⟩ := image_ok hh hw hi1
      simp only [Nat.cast_one] at himg hcol
      rw [mul_ok hf]
      simp only [Out.bind_ok, ha, ite_self, mul_ok (plane_fits hi).1, mul_ok (plane_fits hi).2.2.1, himg, hcol]
      exact forM_ok fun _ _ => rfl
  · simp only [mul_ub (show 2147483647 < kh * kw by omega), Out.bind_ub]
    constructor
    · intro hc; simp at hc
    · intro hf
      exact absurd ((Nat.le_mul_of_pos_right _ hpos).trans hf) hr

/-- **C101**, backward pass of max pooling after such a forward pass, for the rows it recorded. -/
theorem pooling_backward (hh : Win h kh ph sh hOut) (hw : Win w kw pw sw wOut) (hi : Counted [N, C, h, w])
    (ho : Counted [N, C, hOut, wOut]) (hf : kh * kw * (hOut * wOut) ≤ 2147483647) (row : Nat → Nat → Nat)
    (hrow : ∀ i j, row i j < kh * kw) :
    I32.poolBackward (fun i j => row i j) N C h w hOut wOut ⟨kh, kw, ph, pw, sh, sw⟩ = .ok () := by
  have hp := hi.1
  have hq := ho.1
  simp only [List.mem_cons, List.not_mem_nil, or_false, forall_eq_or_imp, forall_eq] at hp hq
  obtain ⟨q1, q2, q3, q4⟩ := hq
  have hpos : 0 < hOut * wOut := Nat.mul_pos q3 q4
  have hi1 : Counted [1, 1, h, w] := ⟨by simp; omega, by simpa using (plane_fits hi).1⟩
  obtain ⟨himg, hcol⟩ := image_ok hh hw hi1
  simp only [Nat.cast_one] at himg hcol
  unfold I32.poolBackward
  simp only [mul_ok ((Nat.le_mul_of_pos_right _ hpos).trans hf), mul_ok (plane_fits ho).1, mul_ok (plane_fits hi).2.2.1, Out.bind_ok,
    himg, hcol, Int.toNat_natCast]
  refine forM_ok fun i _ => ?_
  rw [forM_ok, Out.bind_ok]
  intro j hj
  rw [List.mem_range] at hj
  have h1 : row i j * (hOut * wOut) + hOut * wOut ≤ kh * kw * (hOut * wOut) := by
    have := Nat.mul_le_mul_right (hOut * wOut) (hrow i j)
    rwa [Nat.succ_mul] at this
  rw [mul_ok (by omega), Out.bind_ok]
  unfold I32.add
  rw [chk_ok (by omega) (by omega), Out.bind_ok]

/-- Max pooling overflows only for very large kernels: 100×100 over 1000×1000. -/
example : I32.poolForward 0 1 1 1000 1000 901 901 ⟨100, 100, 0, 0, 1, 1⟩ ≠ .ok () := by
  have hw : Win 1000 100 0 1 901 := ⟨by norm_num, by norm_num, by norm_num, by norm_num, by norm_num⟩
  have := (pooling_forward_partial (N := 1) (C := 1) hw hw ⟨by simp, by norm_num⟩ ⟨by simp, by norm_num⟩ 0).not.2 (by norm_num)
  simpa using this

example : I32.poolForward 7 128 64 224 224 112 112 ⟨2, 2, 0, 0, 2, 2⟩ = .ok () :=
  (pooling_forward_partial (N := 128) (C := 64) (h := 224) (w := 224) (kh := 2) (kw := 2) (ph := 0) (pw := 0) (sh := 2) (sw := 2)
    (hOut := 112) (wOut := 112) ⟨by norm_num, by norm_num, by norm_num, by norm_num, by norm_num⟩
    ⟨by norm_num, by norm_num, by norm_num, by norm_num, by norm_num⟩ ⟨by simp, by norm_num⟩ ⟨by simp, by norm_num⟩ 7).2 (by norm_num)

/-! ## The other layers -/

/-- **C101**, `Linear`: the number of features of an input that exists. -/
theorem linear_fits {n : Nat} {l : List Nat} (hf : Counted (n :: l)) :
    I32.linear ((n :: l).map fun d : Nat => (d : Int)) = .ok ((l.prod : Nat) : Int) := by
  have h1 : l.prod ≤ 2147483647 := by
    have := hf.2
    rw [List.prod_cons] at this
    exact (Nat.le_mul_of_pos_left _ (hf.1 n (by simp))).trans this
  have := accProd_pos (l := l) (i := 1) (fun d hd => hf.1 d (by simp [hd])) (by simpa using h1)
  simpa [I32.linear] using this

/-- **C101**, `BatchNorm2D`. -/
theorem norm2d_fits (hi : Counted [N, C, h, w]) :
    I32.norm2d N C h w = .ok () ∧ I32.norm2dBackward ([N, C, h, w].prod : Nat) C = .ok ((N * h * w : Nat) : Int) := by
  have hp := hi.1
  simp only [List.mem_cons, List.not_mem_nil, or_false, forall_eq_or_imp, forall_eq] at hp
  obtain ⟨p1, p2, p3, p4⟩ := hp
  have hprod : [N, C, h, w].prod = N * h * w * C := by simp; ring
  have hf := hi.2
  rw [hprod] at hf
  constructor
  · have h1 := accProd_pos (l := [N, h, w, C]) (i := 1) (by simp; omega) (by simpa [mul_assoc] using hf)
    have h2 := accProd_pos (l := [N * h * w, C]) (i := 1) (by simp; omega) (by simpa using hf)
    simp only [List.map_cons, List.map_nil, Nat.cast_one] at h1 h2
    unfold I32.norm2d
    rw [h1, Out.bind_ok, mul3_ok p4 (plane_fits hi).2.2.2, Out.bind_ok, h2, Out.bind_ok]
  · unfold I32.norm2dBackward I32.div
    rw [hprod, chk_ok (by omega) (by omega), Out.bind_ok, if_neg (by omega), ← Int.ofNat_tdiv, Nat.mul_div_cancel _ p2]
    have := (plane_fits hi).2.2.2
    exact chk_ok (by omega) (by omega)

/-- **C101**, `GlobalAvgPooling`. -/
theorem avgPool_fits (hi : Counted [N, C, h, w]) : I32.avgPool N C h w = .ok () := by
  unfold I32.avgPool
  rw [mul_ok (plane_fits hi).1, Out.bind_ok, mul_ok (plane_fits hi).2.2.1, Out.bind_ok]

/-- **C101**, cross entropy: the positions of labels that are classes. -/
theorem matchTarget_fits {K : Nat} : ∀ {ts : List Nat} {i : Nat}, (∀ t ∈ ts, t < K) → K * (i + ts.length) ≤ 2147483647 →
    I32.matchTarget K i (ts.map fun t : Nat => (t : Int)) = .ok ()
  | [], _, _, _ => rfl
  | t :: ts, i, ht, hf => by
    have h1 : K * i + K ≤ K * (i + (t :: ts).length) := by
      rw [show K * i + K = K * (i + 1) by ring]
      exact Nat.mul_le_mul_left _ (by simp)
    have h2 := ht t (by simp)
    have ih := matchTarget_fits (ts := ts) (i := i + 1) (fun x hx => ht x (by simp [hx])) (by
      rw [show i + 1 + ts.length = i + (t :: ts).length by simp; omega]; exact hf)
    rw [List.map_cons, I32.matchTarget, mul_ok (by omega), Out.bind_ok]
    unfold I32.add
    rw [chk_ok (by omega) (by omega), Out.bind_ok, ih]

example : I32.linear [128, 64, 7, 7] = .ok 3136 := linear_fits (n := 128) (l := [64, 7, 7]) ⟨by simp, by norm_num⟩
example : I32.norm2d 128 64 224 224 = .ok () := (norm2d_fits (N := 128) (C := 64) (h := 224) (w := 224) ⟨by simp, by norm_num⟩).1
example : I32.matchTarget 10 0 [3, 9, 0] = .ok () := matchTarget_fits (K := 10) (ts := [3, 9, 0]) (by simp) (by norm_num)

end DW.Props.IntArithP
