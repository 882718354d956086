import Verif.Props.BatchNorm
/-!
# Two-dimensional batch normalisation (C39, C40)

A layer keeps three scratch tensors of equal size. They are created by the first `forward` and never
resized, so `Scratch k` says how many elements they hold; `k = 0` before the first call.
-/

set_option autoImplicit false

namespace DW.Props.BatchNormP

open DW.Spec DW.MatL DW.FlatL DW.EigL DW.NormL DW.LayerL DW.LayoutL

noncomputable section

variable {N C H W : Nat}

/-- The scratch tensors of a layer hold `k` elements each. -/
def Scratch (k : Nat) (centered nin nout : Buf) : Prop :=
  centered.vals.length = k ∧ nin.vals.length = k ∧ nout.vals.length = k

/-- The number of elements afterwards. -/
def grown (k T : Nat) : Nat := if k = 0 then T else k

theorem renew_ok (junk : Nat → ℝ) (t : Buf) {s : Shape} {k T : Nat} (ht : t.vals.length = k) (hs : Static s)
    (hf : CountFits s) (hT : count s = T) :
    ∃ t', renew junk (t.vals.length == 0) t s = .ok t' ∧ t'.vals.length = grown k T := by
  unfold renew grown
  by_cases h : k = 0
  · exact ⟨_, by rw [if_pos (by simp [ht, h])]; exact freshBuf_eq junk hs hf hT, by simp [h]⟩
  · exact ⟨t, by rw [if_neg (by simp [ht, h])], by rw [ht, if_neg h]⟩

theorem fits_rows (hf : CountFits [(N : Int), H, W, C]) : CountFits [(N : Int) * H * W, C] := by
  intro k
  rcases k with _ | _ | k
  · simp
  · have := hf 3
    simpa [mul_assoc] using this
  · have := hf 4
    simpa [mul_assoc] using this

variable (eps alpha : ℝ) (gamma beta rm rv : Fin C → ℝ) (gg gb std : List ℝ) (centered nin nout : Buf)

theorem forward2d_step (training : Bool) (junk : Nat → ℝ) {k : Nat} (hk : Scratch k centered nin nout)
    (hle : k = 0 ∨ N * H * W * C ≤ k) (hf : CountFits [(N : Int), H, W, C]) (hs : std.length = C)
    (X : Fin N → Fin C → Fin H → Fin W → ℝ) (old : List ℝ) (ho : old.length = N * (C * (H * W)))
    (out cen : Fin N × Fin H × Fin W → Fin C → ℝ) (s m v : Fin C → ℝ)
    (hker : bnForward ⟨N * H * W, C, fun q c => pixels X (rowsE N H W q) c⟩ ⟨C, rm⟩ ⟨C, rv⟩ training eps alpha
        ⟨C, gamma⟩ ⟨C, beta⟩ =
      .ok ⟨⟨N * H * W, C, fun q c => out (rowsE N H W q) c⟩, ⟨N * H * W, C, fun q c => cen (rowsE N H W q) c⟩,
        ⟨C, s⟩, ⟨C, m⟩, ⟨C, v⟩⟩) :
    ∃ sh rest nin' nout',
      Scratch (grown k (N * H * W * C)) ⟨sh, rowMajor (fun q c => cen (rowsE N H W q) c) ++ rest⟩ nin' nout' ∧
      (layer training eps alpha gamma beta rm rv gg gb std centered nin nout).forward2d junk
          [⟨[N, C, H, W], flat4 X⟩] [⟨[N, C, H, W], old⟩] =
        .ok (layer training eps alpha gamma beta m v gg gb (List.ofFn s)
              ⟨sh, rowMajor (fun q c => cen (rowsE N H W q) c) ++ rest⟩ nin' nout',
            flat4 fun n c h w => out (n, h, w) c) := by
  have hT : N * (H * (W * C)) = N * H * W * C := by ring
  obtain ⟨nin1, hn1, hn1l⟩ := renew_ok junk nin (s := [(N : Int), H, W, C]) (T := N * H * W * C) hk.2.1
    (by simp [Static]) hf (by simp [count, mul_assoc])
  have hout : ∃ t', renew junk (nin.vals.length == 0) nout [(N : Int), H, W, C] = .ok t' ∧
      t'.vals.length = grown k (N * H * W * C) := by
    have := renew_ok junk nout (s := [(N : Int), H, W, C]) (T := N * H * W * C) hk.2.2
      (by simp [Static]) hf (by simp [count, mul_assoc])
    rw [hk.2.2] at this
    rwa [hk.2.1]
  obtain ⟨nout1, ho1, ho1l⟩ := hout
  obtain ⟨cen1, hc1, hc1l⟩ := renew_ok junk centered (s := [(N : Int) * H * W, C]) (T := N * H * W * C) hk.1
    (by
      intro d hd
      simp only [List.mem_cons, List.not_mem_nil, or_false] at hd
      rcases hd with rfl | rfl <;> positivity) (fits_rows hf) (by simp [count, mul_assoc])
  have hcap : N * H * W * C ≤ grown k (N * H * W * C) := by
    unfold grown
    split
    · exact le_refl _
    · next h => exact hle.resolve_left h
  have hv : BnSt.validate 4 [⟨[(N : Int), C, H, W], flat4 X⟩] [⟨[(N : Int), C, H, W], old⟩] = .ok () := by
    simp [BnSt.validate, Out.check, Out.idx]
  have hrows : ((N : Int) * H * W) = ((N * H * W : Nat) : Int) := by push_cast; rfl
  have hin := nchw2nhwc_eq X [] nin1 (by rw [hT, hn1l]; exact hcap)
  rw [List.append_nil] at hin
  -- the two views of an NHWC tensor
  have hflat : ∀ Y : Fin N × Fin H × Fin W → Fin C → ℝ,
      (flat4 fun n h w c => Y (n, h, w) c) = rowMajor fun q c => Y (rowsE N H W q) c := fun Y => flat4_rows _
  have hin' : (flat4 fun n h w c => X n c h w) = rowMajor fun q c => pixels X (rowsE N H W q) c :=
    hflat (pixels X)
  refine ⟨cen1.shape, cen1.vals.drop (N * H * W * C),
    nin1.put (rowMajor (fun q c => pixels X (rowsE N H W q) c) ++ nin1.vals.drop (N * (H * (W * C)))),
    nout1.put (rowMajor (fun q c => out (rowsE N H W q) c) ++ nout1.vals.drop (N * H * W * C)), ⟨?_, ?_, ?_⟩, ?_⟩
  · rw [List.length_append, rowMajor_length, List.length_drop, hc1l]; omega
  · simp only [Buf.put]
    rw [List.length_append, rowMajor_length, List.length_drop, hn1l, hT]; omega
  · simp only [Buf.put]
    rw [List.length_append, rowMajor_length, List.length_drop, ho1l]; omega
  unfold BnSt.forward2d
  rw [hv]
  simp only [Out.bind_ok, dim, Out.idx, List.getElem?_cons_zero, List.getElem?_cons_succ, layer, BEq.rfl, Out.check,
    if_true]
  rw [hn1, ho1]
  simp only [Out.bind_ok]
  rw [hc1]
  simp only [Out.bind_ok]
  rw [hin, hin']
  simp only [Out.bind_ok, hrows]
  rw [mat_append, vec_ofFn, vec_ofFn, vec_ofFn, vec_ofFn]
  simp only [Out.bind_ok, hker]
  rw [setMat_le _ _ (by rw [hc1l]; exact hcap), setVec_ofFn std s hs, setVec_ofFn _ m (by simp),
    setVec_ofFn _ v (by simp), setMat_le _ _ (by rw [ho1l]; exact hcap)]
  simp only [Out.bind_ok, Buf.put, ← hflat out]
  have := nhwc2nchw_eq (fun n h w c => out (n, h, w) c) (nout1.vals.drop (N * H * W * C)) nout1.shape old (by rw [ho])
  rw [this]
  simp [Buf.put, ← ho]

/-! ## C40 -/

/-- **C40**: in training mode `BatchNorm2D` normalises each channel over all pixels of the batch, if the
scratch tensors are new or large enough. -/
theorem batchNorm2d_train (junk : Nat → ℝ) {k : Nat} (hk : Scratch k centered nin nout)
    (hle : k = 0 ∨ N * H * W * C ≤ k) (hf : CountFits [(N : Int), H, W, C]) (hs : std.length = C)
    (X : Fin N → Fin C → Fin H → Fin W → ℝ) (old : List ℝ) (ho : old.length = N * (C * (H * W))) :
    ∃ sh rest nin' nout',
      Scratch (grown k (N * H * W * C)) ⟨sh, rowMajor (fun q c => pixels X (rowsE N H W q) c -
        mean fun p => pixels X p c) ++ rest⟩ nin' nout' ∧
      (layer true eps alpha gamma beta rm rv gg gb std centered nin nout).forward2d junk
          [⟨[N, C, H, W], flat4 X⟩] [⟨[N, C, H, W], old⟩] =
        .ok (layer true eps alpha gamma beta
              (fun c => rm c * alpha + (mean fun p => pixels X p c) * (1 - alpha))
              (fun c => rv c * alpha + (variance fun p => pixels X p c) * (1 - alpha)) gg gb
              (List.ofFn fun c => Real.sqrt ((variance fun p => pixels X p c) + eps))
              ⟨sh, rowMajor (fun q c => pixels X (rowsE N H W q) c - mean fun p => pixels X p c) ++ rest⟩ nin' nout',
            flat4 fun n c h w => batchNorm eps gamma beta (pixels X) (n, h, w) c) :=
  forward2d_step eps alpha gamma beta rm rv gg gb std centered nin nout true junk hk hle hf hs X old ho
    (fun p c => batchNorm eps gamma beta (pixels X) p c)
    (fun p c => pixels X p c - mean fun p => pixels X p c) _ _ _
    (bnForward_train (rowsE N H W) (pixels X) rm rv gamma beta eps alpha)

/-- **C38**: in evaluation mode `BatchNorm2D` applies the fixed affine map of each channel and keeps the
running statistics. -/
theorem batchNorm2d_eval (junk : Nat → ℝ) {k : Nat} (hk : Scratch k centered nin nout)
    (hle : k = 0 ∨ N * H * W * C ≤ k) (hf : CountFits [(N : Int), H, W, C]) (hs : std.length = C)
    (X : Fin N → Fin C → Fin H → Fin W → ℝ) (old : List ℝ) (ho : old.length = N * (C * (H * W))) :
    ∃ std' centered' nin' nout', Scratch (grown k (N * H * W * C)) centered' nin' nout' ∧ std'.length = C ∧
      (layer false eps alpha gamma beta rm rv gg gb std centered nin nout).forward2d junk
          [⟨[N, C, H, W], flat4 X⟩] [⟨[N, C, H, W], old⟩] =
        .ok (layer false eps alpha gamma beta rm rv gg gb std' centered' nin' nout',
            flat4 fun n c h w => normalise (rm c) (rv c) eps (gamma c) (beta c) (X n c h w)) := by
  obtain ⟨sh, rest, nin', nout', h1, h2⟩ :=
    forward2d_step eps alpha gamma beta rm rv gg gb std centered nin nout false junk hk hle hf hs X old ho
    (fun p c => normalise (rm c) (rv c) eps (gamma c) (beta c) (pixels X p c))
    (fun p c => pixels X p c - rm c) _ _ _
    (bnForward_eval (fun q c => pixels X (rowsE N H W q) c) rm rv gamma beta eps alpha)
  exact ⟨_, _, nin', nout', h1, by simp, h2⟩

/-- A batch of images for a layer with `C` channels. -/
structure Imgs (C : Nat) where
  N : Nat
  H : Nat
  W : Nat
  X : Fin N → Fin C → Fin H → Fin W → ℝ

/-- A sequence of training-mode `forward` calls: the outputs. -/
def train2d (junk : Nat → ℝ) (old : Imgs C → List ℝ) (st : BnSt) : List (Imgs C) → Out (List (List ℝ))
  | [] => .ok []
  | b :: bs => do
    let r ← st.forward2d junk [⟨[b.N, C, b.H, b.W], flat4 b.X⟩] [⟨[b.N, C, b.H, b.W], old b⟩]
    let rs ← train2d junk old r.1 bs
    .ok (r.2 :: rs)

/-- The documented output for a batch. -/
def normalised (eps : ℝ) (gamma beta : Fin C → ℝ) (b : Imgs C) : List ℝ :=
  flat4 fun n c h w => batchNorm eps gamma beta (pixels b.X) (n, h, w) c

/-- The full property: any sequence of batches is normalised. -/
def AnySequence : Prop := ∀ (C : Nat) (junk : Nat → ℝ) (eps alpha : ℝ) (gamma beta rm rv : Fin C → ℝ)
  (bs : List (Imgs C)), (∀ b ∈ bs, CountFits [(b.N : Int), b.H, b.W, C]) →
  train2d junk (fun b => List.replicate (b.N * (C * (b.H * b.W))) 0)
    (layer true eps alpha gamma beta rm rv (List.replicate C 0) (List.replicate C 0) (List.replicate C 0)
      ⟨[], []⟩ ⟨[], []⟩ ⟨[], []⟩) bs = .ok (bs.map (normalised eps gamma beta))

theorem writeSeq_short {α : Type} {is : List Nat} {src dst : List α} (h : ∃ i ∈ is, dst.length ≤ i) :
    writeSeq is src dst = .ub .oob := by
  induction is generalizing src dst with
  | nil => obtain ⟨i, hi, -⟩ := h; cases hi
  | cons j is ih =>
    cases src with
    | nil => rfl
    | cons x src =>
      rw [writeSeq]
      split
      · next hj =>
        refine ih ?_
        obtain ⟨i, hi, hle⟩ := h
        rcases List.mem_cons.1 hi with rfl | hi
        · omega
        · exact ⟨i, hi, by simpa using hle⟩
      · rfl

/-- **C40**: a call whose batch has more pixels than the first one writes past the scratch tensors. -/
theorem batchNorm2d_larger_ub (training : Bool) (junk : Nat → ℝ) {k : Nat} (hk : Scratch k centered nin nout)
    (hk0 : k ≠ 0) (hlt : k < N * H * W * C) (X : List ℝ) (old : List ℝ) :
    (layer training eps alpha gamma beta rm rv gg gb std centered nin nout).forward2d junk
      [⟨[N, C, H, W], X⟩] [⟨[N, C, H, W], old⟩] = .ub .oob := by
  have hv : BnSt.validate 4 [⟨[(N : Int), C, H, W], X⟩] [⟨[(N : Int), C, H, W], old⟩] = .ok () := by
    simp [BnSt.validate, Out.check, Out.idx]
  have hr : ∀ (t : Buf) (s : Shape), renew junk (nin.vals.length == 0) t s = .ok t := fun t s => by
    unfold renew; rw [if_neg (by simp [hk.2.1, hk0])]
  have hr' : ∀ (t : Buf) (s : Shape), renew junk (centered.vals.length == 0) t s = .ok t := fun t s => by
    unfold renew; rw [if_neg (by simp [hk.1, hk0])]
  have hw : nchw2nhwc ⟨[(N : Int), C, H, W], X⟩ nin = .ub .oob := by
    unfold nchw2nhwc
    rw [dimN_of (n := N) (by rfl), dimN_of (n := C) (by rfl), dimN_of (n := H) (by rfl), dimN_of (n := W) (by rfl)]
    simp only [Out.bind_ok]
    refine writeSeq_short ⟨k, ?_, by rw [hk.2.1]⟩
    rw [nhwcIdx_eq]
    refine (flat4_perm (T := N * H * W * C) _ (by ring) (fun n c h w n' c' h' w' e => ?_)
      (fun n c h w => ?_)).mem_iff.2 (List.mem_range.2 hlt)
    · have := Fin.ext e
      simp only [pair_inj] at this
      exact ⟨this.1, this.2.2.2, this.2.1, this.2.2.1⟩
    · refine lt_of_lt_of_eq (Fin.is_lt _) (by ring)
  unfold BnSt.forward2d
  rw [hv]
  simp only [Out.bind_ok, dim, Out.idx, List.getElem?_cons_zero, List.getElem?_cons_succ, layer, BEq.rfl, Out.check,
    if_true, hr, hr', hw, Out.bind_ub]

/-- **C40** is false: after a batch of one image, a batch of two overruns the scratch tensor. -/
theorem any_sequence_refuted : ¬ AnySequence := by
  intro h
  have hfit : CountFits [((1 : Nat) : Int), ((1 : Nat) : Int), ((1 : Nat) : Int), ((1 : Nat) : Int)] := fun k => by
    rcases k with _ | _ | _ | _ | k <;> simp
  have hfit2 : CountFits [((2 : Nat) : Int), ((1 : Nat) : Int), ((1 : Nat) : Int), ((1 : Nat) : Int)] := fun k => by
    rcases k with _ | _ | _ | _ | k <;> simp
  have h1 := h 1 (fun _ => 0) 1 0 (fun _ => 1) (fun _ => 0) (fun _ => 0) (fun _ => 1)
    [⟨1, 1, 1, fun _ _ _ _ => 0⟩, ⟨2, 1, 1, fun _ _ _ _ => 0⟩] (fun b hb => by
      simp only [List.mem_cons, List.not_mem_nil, or_false] at hb
      rcases hb with rfl | rfl
      · exact hfit
      · exact hfit2)
  obtain ⟨sh, rest, nin', nout', hsc, hfwd⟩ := batchNorm2d_train (N := 1) (C := 1) (H := 1) (W := 1) 1 0 (fun _ => 1)
    (fun _ => 0) (fun _ => 0) (fun _ => 1) (List.replicate 1 0) (List.replicate 1 0) (List.replicate 1 0) ⟨[], []⟩
    ⟨[], []⟩ ⟨[], []⟩ (fun _ => 0) (k := 0) ⟨rfl, rfl, rfl⟩ (Or.inl rfl) hfit rfl (fun _ _ _ _ => 0)
    (List.replicate (1 * (1 * (1 * 1))) 0) rfl
  simp only [train2d] at h1
  rw [hfwd] at h1
  simp only [Out.bind_ok] at h1
  rw [batchNorm2d_larger_ub (N := 2) (C := 1) (H := 1) (W := 1) _ _ _ _ _ _ _ _ _ _ _ _ true (fun _ => 0) hsc (by decide) (by decide)] at h1
  simp at h1

/-- **C40** (partial): a sequence of batches none of which has more pixels than the scratch tensors hold
is normalised. -/
theorem sequence_fits (junk : Nat → ℝ) (old : Imgs C → List ℝ)
    (hold : ∀ b, (old b).length = b.N * (C * (b.H * b.W))) {k : Nat} (hk0 : k ≠ 0) (bs : List (Imgs C))
    (hf : ∀ b ∈ bs, CountFits [(b.N : Int), b.H, b.W, C]) (hle : ∀ b ∈ bs, b.N * b.H * b.W * C ≤ k)
    (hk : Scratch k centered nin nout) (hs : std.length = C) :
    train2d junk old (layer true eps alpha gamma beta rm rv gg gb std centered nin nout) bs =
      .ok (bs.map (normalised eps gamma beta)) := by
  induction bs generalizing rm rv std centered nin nout with
  | nil => rfl
  | cons b bs ih =>
    obtain ⟨sh, rest, nin', nout', hsc, hfwd⟩ := batchNorm2d_train eps alpha gamma beta rm rv gg gb std centered nin nout
      junk hk (Or.inr (hle b List.mem_cons_self)) (hf b List.mem_cons_self) hs b.X (old b) (hold b)
    rw [grown, if_neg hk0] at hsc
    rw [train2d, hfwd]
    simp only [Out.bind_ok]
    rw [ih _ _ _ _ _ _ (fun b hb => hf b (List.mem_cons_of_mem _ hb)) (fun b hb => hle b (List.mem_cons_of_mem _ hb))
      hsc (by simp)]
    simp only [Out.bind_ok, List.map_cons, normalised]

/-- **C40** (partial): from a new layer, a sequence whose first batch has at least as many pixels as every
later one is normalised batch by batch. Missing, and false: larger later batches. -/
theorem any_sequence_partial (junk : Nat → ℝ) (old : Imgs C → List ℝ)
    (hold : ∀ b, (old b).length = b.N * (C * (b.H * b.W))) (b : Imgs C) (bs : List (Imgs C))
    (hne : b.N * b.H * b.W * C ≠ 0) (hf : ∀ b' ∈ b :: bs, CountFits [(b'.N : Int), b'.H, b'.W, C])
    (hle : ∀ b' ∈ bs, b'.N * b'.H * b'.W ≤ b.N * b.H * b.W) (hs : std.length = C) :
    train2d junk old (layer true eps alpha gamma beta rm rv gg gb std ⟨[], []⟩ ⟨[], []⟩ ⟨[], []⟩) (b :: bs) =
      .ok ((b :: bs).map (normalised eps gamma beta)) := by
  obtain ⟨sh, rest, nin', nout', hsc, hfwd⟩ := batchNorm2d_train eps alpha gamma beta rm rv gg gb std ⟨[], []⟩
    ⟨[], []⟩ ⟨[], []⟩ junk (k := 0) ⟨rfl, rfl, rfl⟩ (Or.inl rfl) (hf b List.mem_cons_self) hs b.X (old b) (hold b)
  rw [grown, if_pos rfl] at hsc
  rw [train2d, hfwd]
  simp only [Out.bind_ok]
  rw [sequence_fits _ _ _ _ _ _ _ _ _ _ _ _ junk old hold hne bs (fun b hb => hf b (List.mem_cons_of_mem _ hb))
    (fun b' hb => Nat.mul_le_mul_right _ (hle b' hb)) hsc (by simp)]
  simp only [Out.bind_ok, List.map_cons, normalised]

/-- The hypotheses hold for two images of 2 × 3 pixels followed by one. -/
example (X : Fin 2 → Fin 2 → Fin 2 → Fin 3 → ℝ) (Y : Fin 1 → Fin 2 → Fin 2 → Fin 3 → ℝ) (gamma beta : Fin 2 → ℝ) :
    ∃ r, train2d (C := 2) (fun _ => 5) (fun b => List.replicate (b.N * (2 * (b.H * b.W))) 0)
      (layer true 1 0 gamma beta (fun _ => 0) (fun _ => 1) [0, 0] [0, 0] [0, 0] ⟨[], []⟩ ⟨[], []⟩ ⟨[], []⟩)
      [⟨2, 2, 3, X⟩, ⟨1, 2, 3, Y⟩] = .ok r :=
  ⟨_, any_sequence_partial (C := 2) 1 0 gamma beta _ _ [0, 0] [0, 0] [0, 0] (fun _ => 5) _ (by simp) ⟨2, 2, 3, X⟩
    [⟨1, 2, 3, Y⟩] (by simp) (fun b hb k => by
      simp only [List.mem_cons, List.not_mem_nil, or_false] at hb
      rcases hb with rfl | rfl <;> rcases k with _ | _ | _ | _ | k <;> simp) (by simp) rfl⟩

/-! ## C39 for two dimensions -/

/-- The position of a pixel and channel. -/
def imgE (N C H W : Nat) : Fin N × Fin C × Fin H × Fin W ≃ (Fin N × Fin H × Fin W) × Fin C where
  toFun p := ((p.1, p.2.2.1, p.2.2.2), p.2.1)
  invFun p := (p.1.1, p.2, p.1.2.1, p.1.2.2)
  left_inv _ := rfl
  right_inv _ := rfl

theorem rowsOf_eq {C R : Nat} (hC : C ≠ 0) (b : Buf) (h : b.vals.length = R * C) : BnSt.rowsOf b C = .ok (R : Int) := by
  have hC' : (C : Int) ≠ 0 := by exact_mod_cast hC
  rw [BnSt.rowsOf, if_neg hC', h]
  congr 1
  push_cast
  exact Int.mul_tdiv_cancel _ hC'

theorem backward2d_step (training : Bool) (hC : C ≠ 0) (sh : Shape) (rest : List ℝ)
    (cen : Fin N × Fin H × Fin W → Fin C → ℝ) (s : Fin C → ℝ)
    (hk : Scratch (N * H * W * C) ⟨sh, rowMajor (fun q c => cen (rowsE N H W q) c) ++ rest⟩ nin nout)
    (g : Fin N → Fin C → Fin H → Fin W → ℝ) :
    ∃ nin' nout', nin'.vals.length = N * H * W * C ∧ nout'.vals.length = N * H * W * C ∧
      ∀ old : List ℝ, old.length = N * (C * (H * W)) → (layer training eps alpha gamma beta rm rv gg gb (List.ofFn s)
        ⟨sh, rowMajor (fun q c => cen (rowsE N H W q) c) ++ rest⟩ nin nout).backward2d
        ⟨[N, C, H, W], flat4 g⟩ ⟨[N, C, H, W], old⟩ =
      .ok (layer training eps alpha gamma beta rm rv gg gb (List.ofFn s)
          ⟨sh, rowMajor (fun q c => cen (rowsE N H W q) c) ++ rest⟩ nin' nout',
        flat4 fun n c h w => bnGrad cen s gamma (pixels g) (n, h, w) c) := by
  have hT : N * (H * (W * C)) = N * H * W * C := by ring
  have hT2 : N * (C * (H * W)) = N * H * W * C := by ring
  have hout := nchw2nhwc_eq g [] nout (by rw [hT, hk.2.2])
  rw [List.append_nil] at hout
  have hflat : ∀ Y : Fin N × Fin H × Fin W → Fin C → ℝ,
      (flat4 fun n h w c => Y (n, h, w) c) = rowMajor fun q c => Y (rowsE N H W q) c := fun Y => flat4_rows _
  have hout' : (flat4 fun n h w c => g n c h w) = rowMajor fun q c => pixels g (rowsE N H W q) c :=
    hflat (pixels g)
  have hzero : List.replicate nin.vals.length (0 : ℝ) = rowMajor fun (_ : Fin (N * H * W)) (_ : Fin C) => (0 : ℝ) := by
    rw [hk.2.1]
    refine eq_rowMajor (by simp) fun i j => ?_
    rw [List.getElem?_replicate, if_pos (index_lt i j)]
  refine ⟨nin.put (flat4 fun n h w c => bnGrad cen s gamma (pixels g) (n, h, w) c),
    nout.put (rowMajor (fun q c => pixels g (rowsE N H W q) c) ++ nout.vals.drop (N * (H * (W * C)))), ?_, ?_,
    fun old ho => ?_⟩
  · simp only [Buf.put, flat4_length, hT]
  · simp only [Buf.put, List.length_append, rowMajor_length, List.length_drop, hk.2.2, hT]; omega
  unfold BnSt.backward2d
  simp only [dim, Out.idx, List.getElem?_cons_zero, List.getElem?_cons_succ, layer, Out.bind_ok]
  rw [hout, hout', rowsOf_eq hC _ (R := N * H * W) (by simp [flat4_length, hT2]),
    rowsOf_eq hC nin (R := N * H * W) hk.2.1]
  simp only [Out.bind_ok]
  rw [mat_append, vec_ofFn, mat_append, hzero, mat_rowMajor, vec_ofFn]
  simp only [Out.bind_ok]
  rw [bnInputGrad_eq (rowsE N H W) cen s gamma (pixels g)]
  simp only [Out.bind_ok, zero_add]
  rw [setMat_zero _ _ (by simp)]
  simp only [Out.bind_ok, Buf.put, ← hflat (bnGrad cen s gamma (pixels g))]
  have := nhwc2nchw_eq (fun n h w c => bnGrad cen s gamma (pixels g) (n, h, w) c) [] nin.shape old (by rw [ho])
  rw [List.append_nil] at this
  rw [this]
  simp only [Out.bind_ok, ← ho, List.drop_length, List.append_nil]

/-- **C39**: after a training-mode `forward` of a new `BatchNorm2D` layer (or one used with the same number of
pixels before), `backward` stores the gradient with respect to the input. It overwrites: see
`batchNorm2d_overwrites`. -/
theorem batchNorm2d_backward (heps : 0 < eps) (hC : C ≠ 0) (junk : Nat → ℝ) {k : Nat}
    (hk : Scratch k centered nin nout) (hle : k = 0 ∨ k = N * H * W * C) (hf : CountFits [(N : Int), H, W, C])
    (hs : std.length = C) (x : Fin N × Fin C × Fin H × Fin W → ℝ) (old : List ℝ)
    (ho : old.length = N * (C * (H * W))) :
    ∃ bwd, Backprop (fun (y : Fin N × Fin C × Fin H × Fin W → ℝ) (p : Fin N × Fin C × Fin H × Fin W) =>
        batchNorm eps gamma beta (pixels (arr4 y)) (p.1, p.2.2.1, p.2.2.2) p.2.1) x bwd ∧
      ∃ st out, (layer true eps alpha gamma beta rm rv gg gb std centered nin nout).forward2d junk
          [⟨[N, C, H, W], flat4 (arr4 x)⟩] [⟨[N, C, H, W], old⟩] = .ok (st, out) ∧
        ∀ (g : Fin N × Fin C × Fin H × Fin W → ℝ) (old' : List ℝ), old'.length = N * (C * (H * W)) →
          ∃ st', st.backward2d ⟨[N, C, H, W], flat4 (arr4 g)⟩ ⟨[N, C, H, W], old'⟩ =
            .ok (st', flat4 fun n c h w => bwd g (n, c, h, w)) := by
  have hb := backprop_reindex (batchNorm_backprop eps gamma beta heps
    (fun p : (Fin N × Fin H × Fin W) × Fin C => pixels (arr4 x) p.1 p.2)) (imgE N C H W) (imgE N C H W)
  obtain ⟨sh, rest, nin', nout', hsc, hfwd⟩ := batchNorm2d_train eps alpha gamma beta rm rv gg gb std centered nin nout
    junk hk (hle.imp_right fun h => h.ge) hf hs (arr4 x) old ho
  have hg : grown k (N * H * W * C) = N * H * W * C := by
    unfold grown
    split
    · rfl
    · next h => exact hle.resolve_left h
  rw [hg] at hsc
  refine ⟨_, hb, _, _, hfwd, fun g old' ho' => ?_⟩
  obtain ⟨nin'', nout'', -, -, h⟩ := backward2d_step eps alpha gamma beta _ _ gg gb _ _ true hC sh rest
    (fun p c => pixels (arr4 x) p c - mean fun p => pixels (arr4 x) p c) _ hsc (arr4 g)
  exact ⟨_, h old' ho'⟩

theorem update2d_step (training : Bool) (hC : C ≠ 0) (hg : gg.length = C) (hb : gb.length = C) (sh : Shape)
    (rest : List ℝ) (cen : Fin N × Fin H × Fin W → Fin C → ℝ) (s : Fin C → ℝ) (hk : N * H * W * C ≤ nout.vals.length)
    (g : Fin N → Fin C → Fin H → Fin W → ℝ) :
    ∃ nout', nout'.vals.length = nout.vals.length ∧ (layer training eps alpha gamma beta rm rv gg gb (List.ofFn s)
        ⟨sh, rowMajor (fun q c => cen (rowsE N H W q) c) ++ rest⟩ nin nout).updateGradients2d
        ⟨[N, C, H, W], flat4 g⟩ =
      .ok (layer training eps alpha gamma beta rm rv (List.ofFn fun c => ∑ p, cen p c / s c * pixels g p c)
          (List.ofFn fun c => ∑ p, pixels g p c) (List.ofFn s)
          ⟨sh, rowMajor (fun q c => cen (rowsE N H W q) c) ++ rest⟩ nin nout') := by
  have hT : N * (H * (W * C)) = N * H * W * C := by ring
  have hT2 : N * (C * (H * W)) = N * H * W * C := by ring
  have hout := nchw2nhwc_eq g [] nout (by rw [hT]; exact hk)
  rw [List.append_nil] at hout
  have hflat : ∀ Y : Fin N × Fin H × Fin W → Fin C → ℝ,
      (flat4 fun n h w c => Y (n, h, w) c) = rowMajor fun q c => Y (rowsE N H W q) c := fun Y => flat4_rows _
  have hout' : (flat4 fun n h w c => g n c h w) = rowMajor fun q c => pixels g (rowsE N H W q) c :=
    hflat (pixels g)
  refine ⟨nout.put (rowMajor (fun q c => pixels g (rowsE N H W q) c) ++ nout.vals.drop (N * (H * (W * C)))), ?_, ?_⟩
  · simp only [Buf.put, List.length_append, rowMajor_length, List.length_drop, hT]; omega
  unfold BnSt.updateGradients2d
  simp only [dim, Out.idx, List.getElem?_cons_zero, List.getElem?_cons_succ, layer, Out.bind_ok]
  rw [hout, hout', rowsOf_eq hC _ (R := N * H * W) (by simp [flat4_length, hT2])]
  simp only [Out.bind_ok]
  rw [mat_append, vec_ofFn, mat_append]
  simp only [Out.bind_ok]
  rw [bnParamGrad_eq (rowsE N H W) cen s (pixels g)]
  simp only [Out.bind_ok]
  rw [setVec_ofFn _ _ hb, Out.bind_ok, setVec_ofFn _ _ hg, Out.bind_ok]
  rfl

/-- **C39**: `updateGradients` of `BatchNorm2D` stores the gradients with respect to gamma and beta. -/
theorem batchNorm2d_updateGradients (hC : C ≠ 0) (junk : Nat → ℝ) {k : Nat}
    (hk : Scratch k centered nin nout) (hle : k = 0 ∨ N * H * W * C ≤ k) (hf : CountFits [(N : Int), H, W, C])
    (hs : std.length = C) (hg : gg.length = C) (hb : gb.length = C) (X : Fin N → Fin C → Fin H → Fin W → ℝ)
    (old : List ℝ) (ho : old.length = N * (C * (H * W))) :
    ∃ bg bb, Backprop (fun y => Function.uncurry (batchNorm eps y beta (pixels X))) gamma bg ∧
      Backprop (fun y => Function.uncurry (batchNorm eps gamma y (pixels X))) beta bb ∧
      ∃ st out, (layer true eps alpha gamma beta rm rv gg gb std centered nin nout).forward2d junk
          [⟨[N, C, H, W], flat4 X⟩] [⟨[N, C, H, W], old⟩] = .ok (st, out) ∧
        ∀ g : Fin N → Fin C → Fin H → Fin W → ℝ, ∃ st', st.updateGradients2d ⟨[N, C, H, W], flat4 g⟩ = .ok st' ∧
          st'.gradGamma = ⟨[C], List.ofFn (bg (Function.uncurry (pixels g)))⟩ ∧
          st'.gradBeta = ⟨[C], List.ofFn (bb (Function.uncurry (pixels g)))⟩ := by
  obtain ⟨sh, rest, nin', nout', hsc, hfwd⟩ := batchNorm2d_train eps alpha gamma beta rm rv gg gb std centered nin nout
    junk hk hle hf hs X old ho
  have hcap : N * H * W * C ≤ grown k (N * H * W * C) := by
    unfold grown
    split
    · exact le_refl _
    · next h => exact hle.resolve_left h
  refine ⟨_, _, batchNorm_backprop_gamma eps (pixels X) gamma beta, batchNorm_backprop_beta eps (pixels X) gamma beta,
    _, _, hfwd, fun g => ?_⟩
  obtain ⟨nout'', -, h⟩ := update2d_step eps alpha gamma beta _ _ gg gb _ _ true hC hg hb sh rest
    (fun p c => pixels X p c - mean fun p => pixels X p c) _ (by rw [hsc.2.2]; exact hcap) g
  exact ⟨_, h, rfl, rfl⟩

/-- **C40**: `backward` of `BatchNorm2D` stores its result in the input gradient instead of adding it: the
old contents, such as the contribution of another consumer of the same placeholder, are lost. -/
theorem batchNorm2d_overwrites (training : Bool) (hC : C ≠ 0) (sh : Shape) (rest : List ℝ)
    (cen : Fin N × Fin H × Fin W → Fin C → ℝ) (s : Fin C → ℝ)
    (hk : Scratch (N * H * W * C) ⟨sh, rowMajor (fun q c => cen (rowsE N H W q) c) ++ rest⟩ nin nout)
    (g : Fin N → Fin C → Fin H → Fin W → ℝ) (old old' : List ℝ) (ho : old.length = N * (C * (H * W)))
    (ho' : old'.length = N * (C * (H * W))) :
    (layer training eps alpha gamma beta rm rv gg gb (List.ofFn s)
        ⟨sh, rowMajor (fun q c => cen (rowsE N H W q) c) ++ rest⟩ nin nout).backward2d
        ⟨[N, C, H, W], flat4 g⟩ ⟨[N, C, H, W], old⟩ =
    (layer training eps alpha gamma beta rm rv gg gb (List.ofFn s)
        ⟨sh, rowMajor (fun q c => cen (rowsE N H W q) c) ++ rest⟩ nin nout).backward2d
        ⟨[N, C, H, W], flat4 g⟩ ⟨[N, C, H, W], old'⟩ := by
  obtain ⟨nin', nout', -, -, h⟩ := backward2d_step eps alpha gamma beta rm rv gg gb nin nout training hC sh rest cen s hk g
  rw [h old ho, h old' ho']

theorem zip_rows_ne (f : ℝ → ℝ → ℝ) {m m' n : Nat} (P : Fin m → Fin n → ℝ) (Q : Fin m' → Fin n → ℝ) (h : m ≠ m') :
    Eig.zip f ⟨m, n, P⟩ ⟨m', n, Q⟩ = .ub .oob := by
  rw [Eig.zip, dif_neg (fun e => h e.1)]

/-- **C40**: and `backward` is undefined after a `forward` with fewer pixels than the first one (`K` pixels): the
scratch tensor and the gradient then have different numbers of rows. -/
theorem batchNorm2d_smaller_ub (training : Bool) (hC : C ≠ 0) {K : Nat} (hK : N * H * W < K) (sh : Shape) (rest : List ℝ)
    (cen : Fin N × Fin H × Fin W → Fin C → ℝ) (s : Fin C → ℝ)
    (hk : Scratch (K * C) ⟨sh, rowMajor (fun q c => cen (rowsE N H W q) c) ++ rest⟩ nin nout)
    (g : Fin N → Fin C → Fin H → Fin W → ℝ) (gradInput : Buf) :
    (layer training eps alpha gamma beta rm rv gg gb (List.ofFn s)
        ⟨sh, rowMajor (fun q c => cen (rowsE N H W q) c) ++ rest⟩ nin nout).backward2d
        ⟨[N, C, H, W], flat4 g⟩ gradInput = .ub .oob := by
  have hT : N * (H * (W * C)) = N * H * W * C := by ring
  have hT2 : N * (C * (H * W)) = N * H * W * C := by ring
  have hout := nchw2nhwc_eq g [] nout (by rw [hT, hk.2.2]; exact Nat.mul_le_mul_right _ hK.le)
  rw [List.append_nil] at hout
  have hout' : (flat4 fun n h w c => g n c h w) = rowMajor fun q c => pixels g (rowsE N H W q) c :=
    flat4_rows _
  have hzero : List.replicate nin.vals.length (0 : ℝ) = rowMajor fun (_ : Fin K) (_ : Fin C) => (0 : ℝ) := by
    rw [hk.2.1]
    refine eq_rowMajor (by simp) fun i j => ?_
    rw [List.getElem?_replicate, if_pos (index_lt i j)]
  unfold BnSt.backward2d
  simp only [dim, Out.idx, List.getElem?_cons_zero, List.getElem?_cons_succ, layer, Out.bind_ok]
  rw [hout, hout', rowsOf_eq hC _ (R := N * H * W) (by simp [flat4_length, hT2]),
    rowsOf_eq hC nin (R := K) hk.2.1]
  simp only [Out.bind_ok]
  rw [mat_append, vec_ofFn, mat_append, hzero, mat_rowMajor, vec_ofFn]
  simp only [Out.bind_ok, bnInputGrad, rowwise_mk, zip_mk, vmap_mk, colSum_mk, vzip_mk, map_mk]
  rw [zip_rows_ne _ _ _ hK.ne']
  rfl

/-- The two calls of `forward` are possible: first `K` images of one pixel, then fewer. -/
theorem smaller_batch_ub (junk : Nat → ℝ) (hC : C ≠ 0) {K K' : Nat} (hK : K' < K)
    (hf : CountFits [(K : Int), ((1 : Nat) : Int), ((1 : Nat) : Int), C])
    (hf' : CountFits [(K' : Int), ((1 : Nat) : Int), ((1 : Nat) : Int), C])
    (X : Fin K → Fin C → Fin 1 → Fin 1 → ℝ) (Y g : Fin K' → Fin C → Fin 1 → Fin 1 → ℝ) (hs : std.length = C) :
    ∃ st st' o o',
      (layer true eps alpha gamma beta rm rv gg gb std ⟨[], []⟩ ⟨[], []⟩ ⟨[], []⟩).forward2d junk
        [⟨[K, C, (1 : Nat), (1 : Nat)], flat4 X⟩] [⟨[K, C, (1 : Nat), (1 : Nat)], List.replicate (K * (C * (1 * 1))) 0⟩] =
          .ok (st, o) ∧
      st.forward2d junk [⟨[K', C, (1 : Nat), (1 : Nat)], flat4 Y⟩]
        [⟨[K', C, (1 : Nat), (1 : Nat)], List.replicate (K' * (C * (1 * 1))) 0⟩] = .ok (st', o') ∧
      ∀ gradInput, st'.backward2d ⟨[K', C, (1 : Nat), (1 : Nat)], flat4 g⟩ gradInput = .ub .oob := by
  obtain ⟨sh, rest, nin, nout, h1, h2⟩ := batchNorm2d_train eps alpha gamma beta rm rv gg gb std ⟨[], []⟩ ⟨[], []⟩
    ⟨[], []⟩ junk (k := 0) ⟨rfl, rfl, rfl⟩ (Or.inl rfl) hf hs X (List.replicate (K * (C * (1 * 1))) 0) (by simp)
  rw [grown, if_pos rfl] at h1
  have hpos : K * 1 * 1 * C ≠ 0 := by simp; omega
  obtain ⟨sh', rest', nin', nout', h3, h4⟩ := batchNorm2d_train eps alpha gamma beta _ _ gg gb _ _ nin nout junk h1
    (Or.inr (Nat.mul_le_mul_right C (by omega : K' * 1 * 1 ≤ K * 1 * 1))) hf' (List.length_ofFn ..) Y
    (List.replicate (K' * (C * (1 * 1))) 0) (by simp)
  rw [grown, if_neg hpos] at h3
  exact ⟨_, _, _, _, h2, h4, fun gi => batchNorm2d_smaller_ub eps alpha gamma beta _ _ gg gb nin' nout' true hC
    (by omega : K' * 1 * 1 < K * 1 * 1) sh' rest' (fun p c => pixels Y p c - mean fun p => pixels Y p c) _ h3 g gi⟩

/-- **C90**: so does the layer on images. -/
theorem batchNorm2d_flags_differ (st : BnSt) (junk : Nat → ℝ) (h : st.gammaTrainable ≠ st.betaTrainable) (N C H W N' C' H' W' : Int)
    (v old : List ℝ) : st.forward2d junk [⟨[N, C, H, W], v⟩] [⟨[N', C', H', W'], old⟩] = .throw .dw := by
  have hv : BnSt.validate 4 [⟨[N, C, H, W], v⟩] [⟨[N', C', H', W'], old⟩] = .ok () := by
    simp [BnSt.validate, Out.check, Out.idx]
  unfold BnSt.forward2d
  rw [hv]
  simp only [Out.bind_ok, Out.idx, List.getElem?_cons_zero, beq_eq_false_iff_ne.2 h, Out.check, Bool.false_eq_true, if_false]
  rfl

end

end DW.Props.BatchNormP
