import Verif.Lemmas.ConvDeriv
import Verif.Model.NN
/-!
# im2col, col2im and convolution (C30 – C33)

`a` describes the vertical and `b` the horizontal direction (`Spec.Axis`); `geo a b` are the same
numbers as the layers store them.
-/

set_option autoImplicit false

namespace DW.Props.ConvP

open DW.Spec DW.MatL DW.FlatL DW.EigL DW.NormL DW.LayerL DW.LayoutL DW.Im2colL DW.ConvL

noncomputable section

variable {N C O : Nat} {a b : Axis}

/-! ## Output sizes -/

/-- A window that fits into the padded image has the positions one expects: as many as there are multiples
of the stride that keep the window inside. -/
theorem positions_fit (h : a.Valid) (hfit : a.dil * (a.kernel - 1) + 1 ≤ a.size + 2 * a.pad) (hk : 0 < a.kernel) (r : Nat) :
    r < a.out ↔ r * a.stride + (a.dil * (a.kernel - 1) + 1) ≤ a.size + 2 * a.pad := by
  obtain ⟨hs, ho⟩ := h
  obtain ⟨k, hk'⟩ : ∃ k, a.kernel = k + 1 := ⟨a.kernel - 1, by omega⟩
  rw [hk'] at hfit ho ⊢
  simp only [Nat.add_sub_cancel] at hfit ⊢
  obtain ⟨e, he⟩ := Nat.exists_eq_add_of_le hfit
  have h1 : ((a.size : Int) + 2 * a.pad - (a.dil * (((k + 1 : Nat) : Int) - 1) + 1)) = (e : Int) := by
    have : (a.size : Int) + 2 * a.pad = a.dil * k + 1 + e := by exact_mod_cast he
    rw [this]; push_cast; ring
  rw [h1, ← Int.ofNat_tdiv] at ho
  have h2 : a.out = e / a.stride + 1 := by
    have : ((e / a.stride + 1 : Nat) : Int) = a.out := by push_cast; exact_mod_cast ho
    exact_mod_cast this.symm
  rw [h2, he, Nat.lt_succ_iff, Nat.le_div_iff_mul_le hs]
  omega

/-- The output size computed during shape inference is the number of positions the kernels use. -/
theorem windowOut_valid (hs : 0 < a.stride) (hd : a.dil = 1)
    (h : windowOut a.size a.kernel a.pad a.stride = .ok (a.out : Int)) : a.Valid := by
  refine ⟨hs, ?_⟩
  have hs' : ((a.stride : Nat) : Int) ≠ 0 := by omega
  unfold windowOut cdiv at h
  rw [if_neg hs', Out.bind_ok] at h
  have : ((a.size : Int) + 2 * a.pad - a.kernel).tdiv a.stride + 1 = a.out := by
    injection h
  rw [← this, hd]
  congr 2
  ring

/-! ## C30 -/

/-- **C30**: `im2col` succeeds whenever the buffer is large enough: it stays inside image and buffer, writes
exactly the first `C*KH*KW*Hout*Wout` elements, and puts the pixel under element `(kh, kw)` of the window at
`(r, q)` of channel `c`, or the fill value, at row `(c*KH + kh)*KW + kw`, column `r*Wout + q`. -/
theorem im2col_elements (ha : a.Valid) (hb : b.Valid) (X : Fin C → Fin a.size → Fin b.size → ℝ) (rest : List ℝ)
    (fill : ℝ) (buf : List ℝ) (hl : C * a.kernel * b.kernel * (a.out * b.out) ≤ buf.length) :
    ∃ res, im2col (flat3 X ++ rest) C a.size b.size buf (geo a b) a.dil b.dil fill = .ok res ∧
      res.length = buf.length ∧
      (∀ i, C * a.kernel * b.kernel * (a.out * b.out) ≤ i → res[i]? = buf[i]?) ∧
      ∀ (c : Fin C) (kh : Fin a.kernel) (kw : Fin b.kernel) (r : Fin a.out) (q : Fin b.out),
        res[((c.val * a.kernel + kh.val) * b.kernel + kw.val) * (a.out * b.out) + (r.val * b.out + q.val)]? =
          some (pixel (X c) fill ((r.val : Int) * a.stride + kh.val * a.dil - a.pad)
            ((q.val : Int) * b.stride + kw.val * b.dil - b.pad)) := by
  have he : C * (a.kernel * (b.kernel * (a.out * b.out))) = C * a.kernel * b.kernel * (a.out * b.out) := by ring
  have hlen : (flat4 (cols a b X fill)).length = C * a.kernel * b.kernel * (a.out * b.out) := by
    rw [flat4_length, he]
  refine ⟨_, im2col_eq ha hb X rest fill buf (by rw [he]; exact hl), ?_, ?_, ?_⟩
  · rw [List.length_append, List.length_drop, hlen, he]; omega
  · intro i hi
    rw [List.getElem?_append_right (by rw [hlen]; exact hi), List.getElem?_drop, hlen, he]
    congr 1
    omega
  · intro c kh kw r q
    have := flat4_getElem? (cols a b X fill) c kh kw (pair r q)
    have hi : ((c.val * a.kernel + kh.val) * b.kernel + kw.val) * (a.out * b.out) + (r.val * b.out + q.val) =
        (pair c (pair kh (pair kw (pair r q)))).val := by simp only [pair_val]; ring
    rw [hi, List.getElem?_append_left (by rw [flat4_length]; exact Fin.is_lt _), this]
    simp [cols, window, Axis.pos]

/-- A 3×3 image, a 2×2 window with padding 1 and stride 2. -/
def axisEx : Axis := ⟨3, 2, 1, 2, 1, 2⟩

theorem axisEx_valid : axisEx.Valid := ⟨by decide, by decide⟩

example : ∃ res, im2col (flat3 (a := 2) (b := 3) (c := 3) fun c y x => (c.val + y.val * x.val : ℝ)) 2 3 3
    (List.replicate 40 0) (geo axisEx axisEx) 1 1 7 = .ok res ∧ res.length = 40 := by
  obtain ⟨res, h1, h2, _⟩ := im2col_elements (C := 2) axisEx_valid axisEx_valid (fun c y x => (c.val + y.val * x.val : ℝ)) [] 7
    (List.replicate 40 0) (by simp [axisEx])
  refine ⟨res, ?_, by rw [h2]; simp⟩
  rw [List.append_nil] at h1
  exact h1

/-! ## C31 -/

/-- **C31**: `col2im` adds to each pixel the sum of the buffer elements `im2col` fills from it, and changes
nothing else. -/
theorem col2im_adds (ha : a.Valid) (hb : b.Valid)
    (B : Fin C → Fin a.kernel → Fin b.kernel → Fin a.out → Fin b.out → ℝ) (rest : List ℝ)
    (A : Fin C → Fin a.size → Fin b.size → ℝ) :
    col2im (flat4 (fun c kh kw (p : Fin (a.out * b.out)) => B c kh kw p.divNat p.modNat) ++ rest) (flat3 A)
        C a.size b.size (geo a b) a.dil b.dil =
      .ok (flat3 fun c y x => A c y x +
        ∑ kh : Fin a.kernel, ∑ kw : Fin b.kernel, ∑ r : Fin a.out, ∑ q : Fin b.out,
          if (r.val : Int) * a.stride + kh.val * a.dil - a.pad = y.val ∧
             (q.val : Int) * b.stride + kw.val * b.dil - b.pad = x.val then B c kh kw r q else 0) := by
  rw [col2im_eq ha hb]
  simp only [pair_divNat, pair_modNat]
  rfl

/-- The scalar product of two buffers. -/
def dot (u v : List ℝ) : ℝ := (List.zipWith (· * ·) u v).sum

theorem dot_ofFn {n : Nat} (f g : Fin n → ℝ) : dot (List.ofFn f) (List.ofFn g) = ∑ i, f i * g i := by
  unfold dot
  have : List.zipWith (· * ·) (List.ofFn f) (List.ofFn g) = List.ofFn fun i => f i * g i := by
    apply List.ext_getElem <;> simp
  rw [this, List.sum_ofFn]

theorem dot_flat3 {k l m : Nat} (f g : Fin k → Fin l → Fin m → ℝ) :
    dot (flat3 f) (flat3 g) = ∑ i, ∑ j, ∑ p, f i j p * g i j p := by
  refine (dot_ofFn _ _).trans ?_
  rw [sum_pair]
  refine Finset.sum_congr rfl fun i _ => ?_
  rw [sum_pair]
  simp only [pair_divNat, pair_modNat]

theorem dot_flat4 {k l m n : Nat} (f g : Fin k → Fin l → Fin m → Fin n → ℝ) :
    dot (flat4 f) (flat4 g) = ∑ i, ∑ j, ∑ p, ∑ q, f i j p q * g i j p q := by
  refine (dot_ofFn _ _).trans ?_
  rw [sum_pair]
  refine Finset.sum_congr rfl fun i _ => ?_
  rw [sum_pair]
  refine Finset.sum_congr rfl fun j _ => ?_
  rw [sum_pair]
  simp only [pair_divNat, pair_modNat]

/-- **C31**: with fill value 0, `<im2col(img), buf> = <img, col2im(buf)>` for all images and buffers, where
`col2im` starts from a zero image. -/
theorem im2col_col2im_adjoint (ha : a.Valid) (hb : b.Valid) (img buf scratch : List ℝ)
    (hi : img.length = C * (a.size * b.size)) (hbuf : buf.length = C * (a.kernel * (b.kernel * (a.out * b.out))))
    (hs : scratch.length = buf.length) :
    ∃ u v, im2col img C a.size b.size scratch (geo a b) a.dil b.dil 0 = .ok u ∧
      col2im buf (List.replicate img.length 0) C a.size b.size (geo a b) a.dil b.dil = .ok v ∧
      u.length = buf.length ∧ v.length = img.length ∧ dot u buf = dot img v := by
  obtain ⟨P, rfl⟩ := exists_rowMajor img hi
  obtain ⟨B, rfl⟩ := exists_flat4 buf hbuf
  have hX : rowMajor P = flat3 fun c y x => P c (pair y x) := by
    unfold flat3
    simp only [pair_div_mod]
  have hz : List.replicate (rowMajor P).length (0 : ℝ) =
      flat3 fun (_ : Fin C) (_ : Fin a.size) (_ : Fin b.size) => (0 : ℝ) := by
    unfold flat3 rowMajor
    rw [List.ofFn_const, List.length_ofFn]
  have h1 := im2col_eq ha hb (fun c y x => P c (pair y x)) [] 0 scratch (by rw [hs, flat4_length])
  have h2 := col2im_eq ha hb B [] fun (_ : Fin C) (_ : Fin a.size) (_ : Fin b.size) => (0 : ℝ)
  rw [List.append_nil] at h1 h2
  rw [List.drop_of_length_le (by rw [hs, flat4_length]), List.append_nil] at h1
  refine ⟨_, _, by rw [hX]; exact h1, by rw [hz]; exact h2, by simp only [flat4_length], ?_, ?_⟩
  · rw [flat3_length, rowMajor_length]
  · rw [hX, dot_flat4, dot_flat3]
    refine Finset.sum_congr rfl fun c _ => ?_
    have := window_adjoint a b (fun y x => P c (pair y x)) fun kh kw r q => B c kh kw (pair r q)
    simp only [sum_pair (m := a.out) (n := b.out), cols, pair_divNat, pair_modNat, zero_add]
    simp only [mul_comm (window a b _ _ _ _ _ _)]
    rw [this]
    refine Finset.sum_congr rfl fun y _ => Finset.sum_congr rfl fun x _ => mul_comm _ _

example : ∃ u v, im2col (List.replicate 18 1) 2 3 3 (List.replicate 32 5) (geo axisEx axisEx) 1 1 0 = .ok u ∧
    col2im (List.replicate 32 2) (List.replicate 18 0) 2 3 3 (geo axisEx axisEx) 1 1 = .ok v ∧
    dot u (List.replicate 32 2) = dot (List.replicate 18 1) v := by
  obtain ⟨u, v, h1, h2, _, _, h3⟩ := im2col_col2im_adjoint (C := 2) axisEx_valid axisEx_valid (List.replicate 18 1)
    (List.replicate 32 2) (List.replicate 32 5) (by simp [axisEx]) (by simp [axisEx]) (by simp)
  rw [List.length_replicate] at h2
  exact ⟨u, v, h1, h2, h3⟩

/-! ## C32 -/

/-- What `Convolution` accepts: a positive kernel and stride, and no dilation. -/
structure ConvAxis (a : Axis) : Prop where
  valid : a.Valid
  dil : a.dil = 1
  kernel : 0 < a.kernel

variable (W : Fin O → Fin C → Fin a.kernel → Fin b.kernel → ℝ) (bias : Fin O → ℝ) (gw gb : List ℝ) (buf : Buf)

/-- A convolution layer with these parameters and gradients; `buf` is its column buffer. -/
def layer : ConvSt where
  weight := ⟨[O, C, a.kernel, b.kernel], flat4 W⟩
  bias := ⟨[O], List.ofFn bias⟩
  gradWeight := ⟨[O, C, a.kernel, b.kernel], gw⟩
  gradBias := ⟨[O], gb⟩
  im2col := buf
  geo := geo a b

theorem validate_ok (ha : ConvAxis a) (hb : ConvAxis b) : (geo a b).validate = .ok () := by
  have h1 := ha.kernel
  have h2 := hb.kernel
  have h3 := ha.valid.1
  have h4 := hb.valid.1
  simp [Geo.validate, geo, Out.check, h1, h2, h3, h4]

/-- **C32**: `Convolution::forward` is cross-correlation with zero padding, whatever the column buffer and
the output held before. -/
theorem convolution_forward (ha : ConvAxis a) (hb : ConvAxis b) (junk : Nat → ℝ)
    (X : Fin N → Fin C → Fin a.size → Fin b.size → ℝ) (old : List ℝ) (ho : old.length = N * (O * (a.out * b.out)))
    (hf : N * (C * a.kernel * b.kernel * (a.out * b.out)) ≤ 2147483647) :
    ∃ sh, (layer W bias gw gb buf).forward junk [⟨[N, C, a.size, b.size], flat4 X⟩] [⟨[N, O, a.out, b.out], old⟩] =
      .ok (layer W bias gw gb ⟨sh, convCols a b X⟩, flat4 (conv a b X W bias)) := by
  have hren : ∃ t : Buf, t.vals.length = N * (C * a.kernel * b.kernel * (a.out * b.out)) ∧
      renew junk (decide ((buf.vals.length : Int) ≠ (N : Int) * (C * a.kernel * b.kernel) * (a.out * b.out))) buf
        [(N : Int) * (C * a.kernel * b.kernel) * (a.out * b.out)] = .ok t := by
    unfold renew
    by_cases h : (buf.vals.length : Int) = (N : Int) * (C * a.kernel * b.kernel) * (a.out * b.out)
    · refine ⟨buf, ?_, by rw [if_neg (by simpa using h)]⟩
      have h' : (buf.vals.length : Int) = ((N * (C * a.kernel * b.kernel * (a.out * b.out)) : Nat) : Int) := by
        rw [h]; push_cast; ring
      exact_mod_cast h'
    · refine ⟨⟨[(N : Int) * (C * a.kernel * b.kernel) * (a.out * b.out)],
        (List.range (N * (C * a.kernel * b.kernel * (a.out * b.out)))).map junk⟩, by simp, ?_⟩
      rw [if_pos (by simpa using h)]
      refine freshBuf_eq junk ?_ ?_ ?_
      · intro d hd
        simp only [List.mem_cons, List.not_mem_nil, or_false] at hd
        rw [hd]; positivity
      · have hf' : (N : Int) * (C * a.kernel * b.kernel) * (a.out * b.out) ≤ 2147483647 := by
          have : ((N * (C * a.kernel * b.kernel * (a.out * b.out)) : Nat) : Int) ≤ 2147483647 := by exact_mod_cast hf
          push_cast at this
          rw [mul_assoc]; exact this
        intro k
        rcases k with _ | k
        · simp
        · simpa using hf'
      · simp [count, mul_assoc]
  obtain ⟨t, ht, hr⟩ := hren
  refine ⟨t.shape, ?_⟩
  unfold ConvSt.forward
  have hv : (layer W bias gw gb buf).geo.validate = .ok () := validate_ok ha hb
  rw [hv]
  simp only [Out.bind_ok, dim, Out.idx, List.getElem?_cons_zero, List.getElem?_cons_succ]
  refine (congrArg (fun o => o >>= _) hr).trans ?_
  rw [Out.bind_ok]
  refine (congrArg (fun o => o >>= _)
    (convForward_eq ha.valid hb.valid ha.dil hb.dil X W bias old t.vals ho ht)).trans ?_
  rw [Out.bind_ok]
  rfl

/-- The geometry of the examples: 3×3 images, 2×2 kernel, padding 1, stride 2. -/
theorem axisEx_conv : ConvAxis axisEx := ⟨axisEx_valid, rfl, by decide⟩

/-- Two images with two channels. -/
def exX : Fin 2 → Fin 2 → Fin axisEx.size → Fin axisEx.size → ℝ := fun n c y x => n.val * c.val + y.val * x.val

def exW : Fin 1 → Fin 2 → Fin axisEx.kernel → Fin axisEx.kernel → ℝ := fun _ c kh kw => c.val + kh.val - kw.val

example : ∃ sh, (layer exW (fun _ => 3) [] [] ⟨[], []⟩).forward (fun _ => 99)
      [⟨[((2 : Nat) : Int), ((2 : Nat) : Int), (axisEx.size : Int), (axisEx.size : Int)], flat4 exX⟩]
      [⟨[((2 : Nat) : Int), ((1 : Nat) : Int), (axisEx.out : Int), (axisEx.out : Int)], List.replicate 8 0⟩] =
    .ok (layer exW (fun _ => 3) [] [] ⟨sh, convCols axisEx axisEx exX⟩, flat4 (conv axisEx axisEx exX exW fun _ => 3)) :=
  convolution_forward _ _ _ _ _ axisEx_conv axisEx_conv _ _ _ (by simp [axisEx]) (by simp [axisEx])

/-! ## C33 -/

/-- `backward` when the column buffer is filled. -/
theorem backward_step (ha : ConvAxis a) (hb : ConvAxis b) (junk : Nat → ℝ) (sh : Shape) (X : Fin N → Fin C → Fin a.size → Fin b.size → ℝ)
    (hf : N * (C * a.kernel * b.kernel * (a.out * b.out)) ≤ 2147483647)
    (hpos : 0 < N * (C * a.kernel * b.kernel * (a.out * b.out)))
    (G : Fin N → Fin O → Fin a.out → Fin b.out → ℝ) (A : Fin N → Fin C → Fin a.size → Fin b.size → ℝ) :
    (layer W bias gw gb ⟨sh, convCols a b X⟩).backward junk ⟨[N, O, a.out, b.out], flat4 G⟩ ⟨[N, C, a.size, b.size], flat4 A⟩ =
      .ok (flat4 fun n c y w => A n c y w + convGradIn a b W G n c y w) := by
  have hlen : (convCols a b X).length = N * (C * a.kernel * b.kernel * (a.out * b.out)) := by
    simp [convCols]
  have hN : 1 ≤ N := Nat.pos_of_mul_pos_right hpos
  have hQ : 0 < a.out * b.out := Nat.pos_of_mul_pos_left (Nat.pos_of_mul_pos_left hpos)
  have hfit : CountFits [(C : Int) * a.kernel * b.kernel, (a.out : Int) * b.out] := by
    have hmul : C * a.kernel * b.kernel * (a.out * b.out) ≤ N * (C * a.kernel * b.kernel * (a.out * b.out)) :=
      Nat.le_mul_of_pos_left _ hN
    have hR : C * a.kernel * b.kernel ≤ C * a.kernel * b.kernel * (a.out * b.out) := Nat.le_mul_of_pos_right _ hQ
    have h1 : C * a.kernel * b.kernel ≤ 2147483647 := by omega
    have h2 : C * a.kernel * b.kernel * (a.out * b.out) ≤ 2147483647 := by omega
    intro k
    rcases k with _ | _ | k
    · simp
    · simpa using (by exact_mod_cast h1 : (C : Int) * a.kernel * b.kernel ≤ 2147483647)
    · simpa using (by exact_mod_cast h2 : (C : Int) * a.kernel * b.kernel * (a.out * b.out) ≤ 2147483647)
  unfold ConvSt.backward
  have hne : ((layer W bias gw gb ⟨sh, convCols a b X⟩).im2col.vals.length != 0) = true := by
    simp only [layer, hlen]
    simp only [bne_iff_ne]; omega
  rw [hne]
  simp only [Out.check, if_true, Out.bind_ok]
  exact convInputGrad_eq junk ha.valid hb.valid ha.dil hb.dil W G A hfit _ _

/-- `updateGradients` when the column buffer is filled. -/
theorem update_step (sh : Shape) (X : Fin N → Fin C → Fin a.size → Fin b.size → ℝ)
    (hpos : 0 < N * (C * a.kernel * b.kernel * (a.out * b.out))) (hgw : gw.length = O * (C * a.kernel * b.kernel))
    (hgb : gb.length = O) (G : Fin N → Fin O → Fin a.out → Fin b.out → ℝ) :
    (layer W bias gw gb ⟨sh, convCols a b X⟩).updateGradients ⟨[N, O, a.out, b.out], flat4 G⟩ =
      .ok (layer W bias (flat4 fun o c kh kw => ∑ n, ∑ r, ∑ q, G n o r q * window a b (X n c) 0 kh kw r q)
        (List.ofFn fun o => ∑ n, ∑ r, ∑ q, G n o r q) ⟨sh, convCols a b X⟩) := by
  have hlen : (convCols a b X).length = N * (C * a.kernel * b.kernel * (a.out * b.out)) := by
    simp [convCols]
  have hne : ((layer W bias gw gb ⟨sh, convCols a b X⟩).im2col.vals.length != 0) = true := by
    simp only [layer, hlen]
    simp only [bne_iff_ne]; omega
  unfold ConvSt.updateGradients
  rw [hne]
  simp only [Out.check, if_true, Out.bind_ok]
  refine (congrArg (fun o => o >>= _) (convWeightsGrad_eq X G gw hgw)).trans ?_
  rw [Out.bind_ok]
  refine (congrArg (fun o => o >>= _) (convBiasGrad_eq G gb hgb _)).trans ?_
  rw [Out.bind_ok]
  rfl

/-- **C33**: after `forward` on `x`, `backward` adds to the input gradient the gradient of
`<grad_output, output>` with respect to the input. -/
theorem convolution_input_gradient (ha : ConvAxis a) (hb : ConvAxis b) (junk : Nat → ℝ)
    (x : Fin N × Fin C × Fin a.size × Fin b.size → ℝ) (old : List ℝ) (ho : old.length = N * (O * (a.out * b.out)))
    (hf : N * (C * a.kernel * b.kernel * (a.out * b.out)) ≤ 2147483647)
    (hpos : 0 < N * (C * a.kernel * b.kernel * (a.out * b.out))) :
    ∃ bwd, Backprop (fun (y : Fin N × Fin C × Fin a.size × Fin b.size → ℝ) (p : Fin N × Fin O × Fin a.out × Fin b.out) =>
        conv a b (arr4 y) W bias p.1 p.2.1 p.2.2.1 p.2.2.2) x bwd ∧
      ∃ st out, (layer W bias gw gb buf).forward junk [⟨[N, C, a.size, b.size], flat4 (arr4 x)⟩]
          [⟨[N, O, a.out, b.out], old⟩] = .ok (st, out) ∧
        ∀ (g : Fin N × Fin O × Fin a.out × Fin b.out → ℝ) (A : Fin N → Fin C → Fin a.size → Fin b.size → ℝ),
          st.backward junk ⟨[N, O, a.out, b.out], flat4 (arr4 g)⟩ ⟨[N, C, a.size, b.size], flat4 A⟩ =
            .ok (flat4 fun n c y w => A n c y w + bwd g (n, c, y, w)) := by
  obtain ⟨sh, hfwd⟩ := convolution_forward W bias gw gb buf ha hb junk (arr4 x) old ho hf
  exact ⟨_, conv_backprop_input W bias x, _, _, hfwd, fun g A => backward_step W bias gw gb ha hb junk sh _ hf hpos (arr4 g) A⟩

/-- **C33**: after `forward`, `updateGradients` replaces the weight gradient by the gradient with respect to
the weights and the bias gradient by the gradient with respect to the bias. -/
theorem convolution_parameter_gradients (ha : ConvAxis a) (hb : ConvAxis b) (junk : Nat → ℝ)
    (w : Fin O × Fin C × Fin a.kernel × Fin b.kernel → ℝ)
    (X : Fin N → Fin C → Fin a.size → Fin b.size → ℝ) (old : List ℝ) (ho : old.length = N * (O * (a.out * b.out)))
    (hf : N * (C * a.kernel * b.kernel * (a.out * b.out)) ≤ 2147483647)
    (hpos : 0 < N * (C * a.kernel * b.kernel * (a.out * b.out))) (hgw : gw.length = O * (C * a.kernel * b.kernel))
    (hgb : gb.length = O) :
    ∃ bwdW bwdB,
      Backprop (fun (y : Fin O × Fin C × Fin a.kernel × Fin b.kernel → ℝ) (p : Fin N × Fin O × Fin a.out × Fin b.out) =>
        conv a b X (arr4 y) bias p.1 p.2.1 p.2.2.1 p.2.2.2) w bwdW ∧
      Backprop (fun (y : Fin O → ℝ) (p : Fin N × Fin O × Fin a.out × Fin b.out) =>
        conv a b X (arr4 w) y p.1 p.2.1 p.2.2.1 p.2.2.2) bias bwdB ∧
      ∃ st out, (layer (arr4 w) bias gw gb buf).forward junk [⟨[N, C, a.size, b.size], flat4 X⟩]
          [⟨[N, O, a.out, b.out], old⟩] = .ok (st, out) ∧
        ∀ g : Fin N × Fin O × Fin a.out × Fin b.out → ℝ,
          st.updateGradients ⟨[N, O, a.out, b.out], flat4 (arr4 g)⟩ =
            .ok { st with
              gradWeight := ⟨[O, C, a.kernel, b.kernel], flat4 fun o c kh kw => bwdW g (o, c, kh, kw)⟩
              gradBias := ⟨[O], List.ofFn (bwdB g)⟩ } := by
  obtain ⟨sh, hfwd⟩ := convolution_forward (arr4 w) bias gw gb buf ha hb junk X old ho hf
  exact ⟨_, _, conv_backprop_weight X bias w, conv_backprop_bias X (arr4 w) bias, _, _, hfwd,
    fun g => update_step (arr4 w) bias gw gb sh X hpos hgw hgb (arr4 g)⟩

/-- Before any `forward`, both calls are rejected. -/
theorem convolution_needs_forward (junk : Nat → ℝ) (go gi : Buf) (sh : Shape) :
    (layer W bias gw gb ⟨sh, []⟩).backward junk go gi = .throw .dw ∧
      (layer W bias gw gb ⟨sh, []⟩).updateGradients go = .throw .dw := by
  constructor <;> simp [ConvSt.backward, ConvSt.updateGradients, layer, Out.check]

example : ∃ st out, (layer exW (fun _ => 3) (List.replicate 8 5) [5] ⟨[], []⟩).forward (fun _ => 99)
      [⟨[((2 : Nat) : Int), ((2 : Nat) : Int), (axisEx.size : Int), (axisEx.size : Int)], flat4 exX⟩]
      [⟨[((2 : Nat) : Int), ((1 : Nat) : Int), (axisEx.out : Int), (axisEx.out : Int)], List.replicate 8 0⟩] = .ok (st, out) := by
  obtain ⟨_, _, _, _, st, out, h, _⟩ := convolution_parameter_gradients (fun _ => 3) (List.replicate 8 5) [5] ⟨[], []⟩
    axisEx_conv axisEx_conv (fun _ => 99) (fun p => exW p.1 p.2.1 p.2.2.1 p.2.2.2) exX (List.replicate 8 0) (by simp [axisEx])
    (by simp [axisEx]) (by simp [axisEx]) (by simp [axisEx]) (by simp)
  exact ⟨st, out, h⟩

end

end DW.Props.ConvP
