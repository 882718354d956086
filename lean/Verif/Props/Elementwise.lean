import Verif.Lemmas.Norm
/-!
# Global average pooling, dropout and addition (C36, C41, C42)
-/

set_option autoImplicit false

namespace DW.Props.ElementwiseP

open DW.Spec DW.MatL DW.FlatL DW.EigL DW.NormL DW.LayerL DW.DerivL

noncomputable section

variable {N C H W n : Nat}

/-! ## C36 -/

/-- **C36**: `GlobalAvgPooling` stores the mean of each plane. `s` is the shape of the output. -/
theorem gap_forward (X : Fin N → Fin C → Fin H → Fin W → ℝ) (s : Shape) (old : List ℝ) (ho : old.length = N * C) :
    gapForward ⟨[N, C, H, W], flat4 X⟩ ⟨s, old⟩ = .ok (rowMajor fun n c => planeMean X n c) := by
  unfold gapForward
  simp only [dim, Out.idx, List.getElem?_cons_zero, List.getElem?_cons_succ, Out.bind_ok]
  rw [flat4_planes]
  have h1 : ((N : Int) * C) = ((N * C : Nat) : Int) := by push_cast; rfl
  have h2 : ((H : Int) * W) = ((H * W : Nat) : Int) := by push_cast; rfl
  rw [h1, h2, mat_rowMajor, Out.bind_ok, rowMean_mk, ho, setVec_ofFn _ _ ho, rowMajor_eq_ofFn]
  congr 2
  funext q
  exact mean_rows (planeE H W) fun p => X q.divNat q.modNat p.1 p.2

/-- **C36**: `backward` adds the gradient of the plane means, which is the output gradient divided by the
number of pixels. -/
theorem gap_backward (x : Fin N × Fin C × Fin H × Fin W → ℝ) :
    ∃ bwd, Backprop (fun (y : Fin N × Fin C × Fin H × Fin W → ℝ) (p : Fin N × Fin C) =>
        planeMean (fun n c h w => y (n, c, h, w)) p.1 p.2) x bwd ∧
      (∀ g n c h w, bwd g (n, c, h, w) = g (n, c) / ((H * W : Nat) : ℝ)) ∧
      ∀ (g : Fin N × Fin C → ℝ) (s : Shape) (old : Fin N → Fin C → Fin H → Fin W → ℝ),
        gapBackward ⟨s, rowMajor (Function.curry g)⟩ ⟨[N, C, H, W], flat4 old⟩ =
          .ok (flat4 fun n c h w => old n c h w + bwd g (n, c, h, w)) := by
  refine ⟨fun g p => g (p.1, p.2.1) / ((H * W : Nat) : ℝ), ?_, fun _ _ _ _ _ => rfl, fun g s old => ?_⟩
  · refine backprop_affine (fun y p => planeMean (fun n c h w => y (n, c, h, w)) p.1 p.2) 0 (fun y z p => ?_)
      (fun a y p => ?_) (fun y p => by simp) (fun g v => ?_)
    · simp only [planeMean, mean, Pi.add_apply, Finset.sum_add_distrib, add_div]
    · simp only [planeMean, mean, Pi.smul_apply, smul_eq_mul, ← Finset.mul_sum, mul_div_assoc]
    · simp only [Fintype.sum_prod_type, planeMean, mean]
      refine Finset.sum_congr rfl fun n _ => Finset.sum_congr rfl fun c _ => ?_
      simp only [Fintype.card_prod, Fintype.card_fin, ← Finset.mul_sum]
      ring
  · unfold gapBackward
    simp only [dim, Out.idx, List.getElem?_cons_zero, List.getElem?_cons_succ, Out.bind_ok]
    rw [flat4_planes, flat4_planes]
    have h1 : ((N : Int) * C) = ((N * C : Nat) : Int) := by push_cast; rfl
    have h2 : ((H : Int) * W) = ((H * W : Nat) : Int) := by push_cast; rfl
    rw [h1, h2, mat_rowMajor, rowMajor_eq_ofFn, vec_ofFn]
    simp only [Out.bind_ok, colwise_mk]
    rw [setMat_zero _ _ (by simp)]
    rfl

/-- A batch of two images with three channels of 2 × 2 pixels. -/
example (X : Fin 2 → Fin 3 → Fin 2 → Fin 2 → ℝ) : ∃ r,
    gapForward ⟨[(2 : Nat), (3 : Nat), (2 : Nat), (2 : Nat)], flat4 X⟩ ⟨[2, 3], List.replicate 6 0⟩ = .ok r :=
  ⟨_, gap_forward X _ _ (by simp)⟩

/-! ## C41 -/

/-- **C41**: in training mode, `forward` draws a mask and stores `x / (1 - p)` where the mask is at least
`p`, and 0 elsewhere. -/
theorem dropout_forward_train (rng : Nat → ℝ) (p : ℝ) (sm s : Shape) (mask old : List ℝ) (x : Fin n → ℝ)
    (hm : mask.length = n) (ho : old.length = n) :
    DropSt.forward rng ⟨⟨sm, mask⟩, true, p⟩ [⟨s, List.ofFn x⟩] [⟨s, old⟩] =
      .ok (⟨⟨sm, List.ofFn fun i : Fin n => rng i⟩, true, p⟩, List.ofFn (dropped p (fun i => rng i) x)) := by
  unfold DropSt.forward ActL.validate
  simp only [idx_zero, List.length_singleton, beq_self_eq_true, Out.check_true, Out.bind_ok, if_true, Buf.put, hm, range_map,
    List.length_ofFn]
  rw [vec_ofFn, Out.bind_ok, vec_ofFn, Out.bind_ok]
  simp only [DropSt.kernel, vzip_mk, Out.bind_ok, ho]
  rw [setVec_ofFn _ _ ho, Out.bind_ok]
  congr 3
  funext i
  simp only [dropped]
  split <;> simp

/-- **C41**: with `p = 0` nothing is dropped, because the generator's values are not negative. -/
theorem dropout_zero (rng : Nat → ℝ) (hr : ∀ i, 0 ≤ rng i) (x : Fin n → ℝ) : dropped 0 (fun i => rng i) x = x := by
  funext i
  simp [dropped, hr]

/-- **C41**: in evaluation mode `forward` copies its input and keeps the mask. -/
theorem dropout_forward_eval (rng : Nat → ℝ) (p : ℝ) (sm s : Shape) (mask old : List ℝ) (x : Fin n → ℝ)
    (hn : n ≠ 0) (ho : old.length = n) :
    DropSt.forward rng ⟨⟨sm, mask⟩, false, p⟩ [⟨s, List.ofFn x⟩] [⟨s, old⟩] =
      .ok (⟨⟨sm, mask⟩, false, p⟩, List.ofFn x) := by
  unfold DropSt.forward ActL.validate
  have : old ≠ [] := fun h => hn (by rw [← ho, h]; rfl)
  simp [idx_zero, this, Out.check]

/-- **C41**: a training batch of another size than the mask (which has the size of the input placeholder)
is undefined. -/
theorem dropout_other_batch_ub (rng : Nat → ℝ) (p : ℝ) (sm s : Shape) (mask old : List ℝ) (x : Fin n → ℝ)
    (hm : mask.length ≠ n) :
    DropSt.forward rng ⟨⟨sm, mask⟩, true, p⟩ [⟨s, List.ofFn x⟩] [⟨s, old⟩] = .ub .oob := by
  unfold DropSt.forward ActL.validate
  simp only [idx_zero, List.length_singleton, beq_self_eq_true, Out.check_true, Out.bind_ok, if_true, Buf.put, range_map,
    List.length_ofFn]
  rw [vec_ofFn, Out.bind_ok, vec_ofFn, Out.bind_ok]
  simp only [DropSt.kernel, Eig.vzip]
  rw [dif_neg hm, Out.bind_ub]

/-- **C41**: anything but one input and one output of the same shape throws. -/
theorem dropout_throws (rng : Nat → ℝ) (st : DropSt) (ins outs : List Buf)
    (h : ¬ ∃ x y, ins = [x] ∧ outs = [y] ∧ x.shape = y.shape) : DropSt.forward rng st ins outs = .throw .dw := by
  unfold DropSt.forward
  rw [act_validate_throws ins outs h, Out.bind_throw]

/-- What `backward` adds, in either mode. -/
theorem dropout_backward (p : ℝ) (tr : Bool) (sm s1 s2 : Shape) (m g old : Fin n → ℝ) :
    open Classical in
    DropSt.backward ⟨⟨sm, List.ofFn m⟩, tr, p⟩ ⟨s1, List.ofFn g⟩ ⟨s2, List.ofFn old⟩ =
      .ok (List.ofFn fun i => old i + if p ≤ m i then g i else 0) := by
  unfold DropSt.backward
  simp only [List.length_ofFn]
  rw [vec_ofFn, Out.bind_ok, vec_ofFn, Out.bind_ok, vec_ofFn, Out.bind_ok]
  simp only [vzip_mk, Out.bind_ok]
  rw [setVec_ofFn _ _ (by simp)]

/-- The function a layer computed: in training mode with mask `m`, or the identity. -/
def dropoutFn (tr : Bool) (p : ℝ) (m x : Fin n → ℝ) : Fin n → ℝ := if tr then dropped p m x else x

/-- The gradient part of the property: `backward` adds the gradient of the function computed. -/
def DropoutGradient (tr : Bool) : Prop := ∀ (n : Nat) (p : ℝ) (m x : Fin n → ℝ) (s : Shape), 0 ≤ p → p < 1 →
  ∃ bwd, Backprop (dropoutFn tr p m) x bwd ∧ ∀ g old : Fin n → ℝ,
    DropSt.backward ⟨⟨s, List.ofFn m⟩, tr, p⟩ ⟨s, List.ofFn g⟩ ⟨s, List.ofFn old⟩ =
      .ok (List.ofFn fun i => old i + bwd g i)

theorem dropped_backprop (p : ℝ) (m x : Fin n → ℝ) :
    open Classical in
    Backprop (dropped p m) x fun g i => if p ≤ m i then g i / (1 - p) else 0 := by
  classical
  refine backprop_affine (dropped p m) 0 (fun y z i => ?_) (fun a y i => ?_) (by simp) fun g v => ?_
  · simp only [dropped, Pi.add_apply]; split <;> ring
  · simp only [dropped, Pi.smul_apply, smul_eq_mul]; split <;> ring
  · refine Finset.sum_congr rfl fun i _ => ?_
    simp only [dropped]
    split <;> ring

/-- **C41** is false for the training-mode gradient: the factor `1 / (1 - p)` is missing. -/
theorem dropout_gradient_refuted : ¬ DropoutGradient true := by
  intro h
  obtain ⟨bwd, hb, he⟩ := h 1 (1 / 2) (fun _ => 3 / 4) (fun _ => 0) [1] (by norm_num) (by norm_num)
  have h1 := Out.ok.inj ((he (fun _ => 1) fun _ => 0).symm.trans (dropout_backward (1 / 2) true [1] [1] [1]
    (fun _ => 3 / 4) (fun _ => 1) fun _ => 0))
  have h2 := congrFun (List.ofFn_injective h1) 0
  have h3 := dropped_backprop (1 / 2) (fun _ : Fin 1 => (3 / 4 : ℝ)) (fun _ => 0)
  rw [backprop_unique hb h3] at h2
  norm_num at h2

/-- **C41** is false for the evaluation-mode gradient: the mask of the last training call is applied although
`forward` copied its input. -/
theorem dropout_eval_gradient_refuted : ¬ DropoutGradient false := by
  intro h
  obtain ⟨bwd, hb, he⟩ := h 1 (1 / 2) (fun _ => 1 / 4) (fun _ => 0) [1] (by norm_num) (by norm_num)
  have h1 := Out.ok.inj ((he (fun _ => 1) fun _ => 0).symm.trans (dropout_backward (1 / 2) false [1] [1] [1]
    (fun _ => 1 / 4) (fun _ => 1) fun _ => 0))
  have h2 := congrFun (List.ofFn_injective h1) 0
  have h3 : Backprop (dropoutFn false (1 / 2) (fun _ : Fin 1 => (1 / 4 : ℝ))) (fun _ => 0) (fun g => g) :=
    backprop_affine (fun y => y) 0 (by simp) (by simp) (by simp [dropoutFn]) (by simp)
  rw [backprop_unique hb h3] at h2
  norm_num at h2

/-- **C41** (partial): in training mode `backward` adds `1 - p` times the gradient. Missing, and false: the
gradient itself, except for `p = 0`. -/
theorem dropout_gradient_partial (p : ℝ) (hp : p < 1) (sm s1 s2 : Shape) (m x : Fin n → ℝ) :
    ∃ bwd, Backprop (dropped p m) x bwd ∧ ∀ g old : Fin n → ℝ,
      DropSt.backward ⟨⟨sm, List.ofFn m⟩, true, p⟩ ⟨s1, List.ofFn g⟩ ⟨s2, List.ofFn old⟩ =
        .ok (List.ofFn fun i => old i + (1 - p) * bwd g i) := by
  classical
  refine ⟨_, dropped_backprop p m x, fun g old => ?_⟩
  rw [dropout_backward]
  congr 2
  funext i
  have : (1 - p) ≠ 0 := by linarith
  split
  · field_simp
  · simp

example (x : Fin 4 → ℝ) : ∃ r, DropSt.forward (fun i => (i : ℝ) / 10) ⟨⟨[2, 2], [0, 0, 0, 0]⟩, true, 1 / 5⟩
    [⟨[2, 2], List.ofFn x⟩] [⟨[2, 2], [0, 0, 0, 0]⟩] = .ok r :=
  ⟨_, dropout_forward_train _ _ _ _ _ _ x rfl rfl⟩

/-! ## C42 -/

/-- **C42**: `Add` stores the sum. -/
theorem add_forward (s1 s2 s3 : Shape) (x y : Fin n → ℝ) (old : List ℝ) (ho : old.length = n) (more : List Buf) :
    addForward (⟨s1, List.ofFn x⟩ :: ⟨s2, List.ofFn y⟩ :: more) [⟨s3, old⟩] = .ok (List.ofFn fun i => x i + y i) := by
  unfold addForward
  simp only [Out.at?, List.getElem?_cons_zero, List.getElem?_cons_succ, Out.bind_ok, List.length_ofFn]
  rw [vec_ofFn, Out.bind_ok, vec_ofFn, Out.bind_ok]
  simp only [vzip_mk, Out.bind_ok, ho]
  rw [setVec_ofFn _ _ ho]

/-- **C42**: fewer than two inputs or no output throw. -/
theorem add_forward_throws (ins outs : List Buf) (h : ins.length < 2 ∨ outs = []) :
    addForward ins outs = .throw .outOfRange := by
  unfold addForward
  match ins, outs with
  | [], _ => rfl
  | [_], _ => rfl
  | _ :: _ :: _, [] => rfl
  | _ :: _ :: _, _ :: _ => simp at h

/-- Table `r` is table `tbl` with `d h k` added to element `k` of tensor `h`. -/
def Added (tbl r : List Buf) (d : Nat → Nat → ℝ) : Prop :=
  r.length = tbl.length ∧ ∀ (h : Nat) (b : Buf), tbl[h]? = some b → ∃ b', r[h]? = some b' ∧ b'.shape = b.shape ∧
    b'.vals.length = b.vals.length ∧ ∀ (k : Nat) (v : ℝ), b.vals[k]? = some v → b'.vals[k]? = some (v + d h k)

theorem Added.trans {t r s : List Buf} {d e : Nat → Nat → ℝ} (h1 : Added t r d) (h2 : Added r s e) :
    Added t s fun h k => d h k + e h k := by
  refine ⟨h2.1.trans h1.1, fun h b hb => ?_⟩
  obtain ⟨b1, e1, s1, l1, v1⟩ := h1.2 h b hb
  obtain ⟨b2, e2, s2, l2, v2⟩ := h2.2 h b1 e1
  refine ⟨b2, e2, s2.trans s1, l2.trans l1, fun k v hv => ?_⟩
  rw [v2 k _ (v1 k v hv), add_assoc]

theorem Added.congr {t r : List Buf} {d e : Nat → Nat → ℝ} (h1 : Added t r d) (h : ∀ i k, d i k = e i k) :
    Added t r e := by
  have : d = e := funext fun i => funext fun k => h i k
  rwa [← this]

theorem Added.refl (t : List Buf) : Added t t fun _ _ => 0 :=
  ⟨rfl, fun _ b hb => ⟨b, hb, rfl, rfl, fun k v hv => by rw [hv, add_zero]⟩⟩

theorem addAt_added {tbl : List Buf} {h i : Nat} {b : Buf} (hb : tbl[h]? = some b) (hi : i < b.vals.length) (v : ℝ) :
    ∃ r, addAt tbl h i v = .ok r ∧ Added tbl r fun h' k => if h' = h ∧ k = i then v else 0 := by
  refine ⟨_, by unfold addAt; rw [hb]; simp only; rw [List.getElem?_eq_getElem hi], by simp, fun h' b' hb' => ?_⟩
  by_cases hh : h' = h
  · subst hh
    rw [hb] at hb'
    cases hb'
    have hlt : h' < tbl.length := (List.getElem?_eq_some_iff.1 hb).1
    refine ⟨_, List.getElem?_set_self hlt, rfl, by simp [Buf.put], fun k x hx => ?_⟩
    simp only [Buf.put, true_and]
    by_cases hk : k = i
    · subst hk
      rw [if_pos rfl, List.getElem?_set_self hi]
      rw [List.getElem?_eq_getElem hi] at hx
      cases hx; rfl
    · rw [if_neg hk, List.getElem?_set_ne (fun e => hk e.symm), hx, add_zero]
  · refine ⟨b', by rw [List.getElem?_set_ne (fun e => hh e.symm)]; exact hb', rfl, rfl, fun k x hx => ?_⟩
    show _ = some (x + if h' = h ∧ k = i then v else 0)
    rw [if_neg (fun e => hh e.1), hx, add_zero]

/-- How often `Add` uses gradient tensor `h`. -/
def uses (h gi0 gi1 : Nat) : ℝ := (if h = gi0 then 1 else 0) + if h = gi1 then 1 else 0

theorem addLoop_added (gi0 gi1 : Nat) (go : List ℝ) (i : Nat) (tbl : List Buf)
    (h0 : ∃ b, tbl[gi0]? = some b ∧ i + go.length ≤ b.vals.length)
    (h1 : ∃ b, tbl[gi1]? = some b ∧ i + go.length ≤ b.vals.length) :
    ∃ r, addLoop gi0 gi1 go i tbl = .ok r ∧
      Added tbl r fun h k => uses h gi0 gi1 * if i ≤ k then go.getD (k - i) 0 else 0 := by
  induction go generalizing i tbl with
  | nil =>
    exact ⟨tbl, rfl, (Added.refl tbl).congr fun h k => by simp⟩
  | cons v go ih =>
    obtain ⟨b0, hb0, hl0⟩ := h0
    obtain ⟨b1, hb1, hl1⟩ := h1
    rw [List.length_cons] at hl0 hl1
    obtain ⟨t1, e1, a1⟩ := addAt_added hb0 (i := i) (by omega) v
    obtain ⟨b1', hb1', -, hlen1, -⟩ := a1.2 gi1 b1 hb1
    obtain ⟨t2, e2, a2⟩ := addAt_added hb1' (i := i) (by omega) v
    have a12 := a1.trans a2
    obtain ⟨c0, hc0, -, hcl0, -⟩ := a12.2 gi0 b0 hb0
    obtain ⟨c1, hc1, -, hcl1, -⟩ := a12.2 gi1 b1 hb1
    obtain ⟨r, er, ar⟩ := ih (i + 1) t2 ⟨c0, hc0, by omega⟩ ⟨c1, hc1, by omega⟩
    refine ⟨r, by rw [addLoop, e1, Out.bind_ok, e2, Out.bind_ok, er], (a12.trans ar).congr fun h k => ?_⟩
    simp only [uses]
    rcases Nat.lt_trichotomy k i with hk | rfl | hk
    · simp [show ¬ k = i by omega, show ¬ i + 1 ≤ k by omega, show ¬ i ≤ k by omega]
    · rw [if_neg (show ¬ k + 1 ≤ k by omega), if_pos (le_refl k)]
      simp only [and_true, Nat.sub_self, List.getD_cons_zero]
      split <;> split <;> ring
    · rw [if_pos (show i + 1 ≤ k by omega), if_pos hk.le, if_neg (by omega), if_neg (by omega)]
      have : k - i = (k - (i + 1)) + 1 := by omega
      rw [this, List.getD_cons_succ]
      ring

/-- **C42**: `backward` adds the output gradient once per use to the gradient of each input, and nothing
elsewhere; when both inputs have the same gradient tensor it is added twice. -/
theorem add_backward (s : Shape) (g : Fin n → ℝ) (gi0 gi1 : Nat) (tbl : List Buf)
    (h0 : ∃ b, tbl[gi0]? = some b ∧ b.vals.length = n) (h1 : ∃ b, tbl[gi1]? = some b ∧ b.vals.length = n) :
    ∃ r, addBackward [⟨s, List.ofFn g⟩] [gi0, gi1] tbl = .ok r ∧
      Added tbl r fun h k => uses h gi0 gi1 * if hk : k < n then g ⟨k, hk⟩ else 0 := by
  obtain ⟨b0, hb0, hl0⟩ := h0
  obtain ⟨b1, hb1, hl1⟩ := h1
  obtain ⟨r, er, ar⟩ := addLoop_added gi0 gi1 (List.ofFn g) 0 tbl ⟨b0, hb0, by simp [hl0]⟩ ⟨b1, hb1, by simp [hl1]⟩
  refine ⟨r, by simp [addBackward, Out.at?, er], ar.congr fun h k => ?_⟩
  rw [if_pos (Nat.zero_le k), Nat.sub_zero, List.getD_eq_getElem?_getD]
  by_cases hk : k < n
  · simp [hk]
  · rw [dif_neg hk, List.getElem?_eq_none (by simpa using hk)]; rfl

/-- **C42**: distinct gradient tensors each receive the output gradient. -/
theorem add_backward_distinct (s s0 s1 : Shape) (g a b : Fin n → ℝ) :
    addBackward [⟨s, List.ofFn g⟩] [0, 1] [⟨s0, List.ofFn a⟩, ⟨s1, List.ofFn b⟩] =
      .ok [⟨s0, List.ofFn fun i => a i + g i⟩, ⟨s1, List.ofFn fun i => b i + g i⟩] := by
  obtain ⟨r, hr, ha⟩ := add_backward s g 0 1 [⟨s0, List.ofFn a⟩, ⟨s1, List.ofFn b⟩] ⟨_, rfl, by simp⟩ ⟨_, rfl, by simp⟩
  rw [hr]
  obtain ⟨⟨t0, v0⟩, e0, f0, l0, v0'⟩ := ha.2 0 _ rfl
  obtain ⟨⟨t1, v1⟩, e1, f1, l1, v1'⟩ := ha.2 1 _ rfl
  have hl := ha.1
  match r, hl with
  | [x, y], _ =>
    simp only [List.getElem?_cons_zero, List.getElem?_cons_succ, Option.some.injEq] at e0 e1
    subst e0 e1
    simp only [List.length_ofFn] at f0 f1 l0 l1
    subst f0 f1
    congr 3
    · congr 1
      apply List.ext_getElem? fun k => ?_
      by_cases hk : k < n
      · rw [v0' k (a ⟨k, hk⟩) (by simp [hk])]
        simp [uses, hk]
      · rw [List.getElem?_eq_none (by omega), List.getElem?_eq_none (by simp; omega)]
    · congr 2
      apply List.ext_getElem? fun k => ?_
      by_cases hk : k < n
      · rw [v1' k (b ⟨k, hk⟩) (by simp [hk])]
        simp [uses, hk]
      · rw [List.getElem?_eq_none (by omega), List.getElem?_eq_none (by simp; omega)]

/-- **C42**: `Add(x, x)` gives `x` twice the gradient. -/
theorem add_backward_same (s s0 : Shape) (g a : Fin n → ℝ) :
    addBackward [⟨s, List.ofFn g⟩] [0, 0] [⟨s0, List.ofFn a⟩] = .ok [⟨s0, List.ofFn fun i => a i + 2 * g i⟩] := by
  obtain ⟨r, hr, ha⟩ := add_backward s g 0 0 [⟨s0, List.ofFn a⟩] ⟨_, rfl, by simp⟩ ⟨_, rfl, by simp⟩
  rw [hr]
  obtain ⟨⟨t0, v0⟩, e0, f0, l0, v0'⟩ := ha.2 0 _ rfl
  have hl := ha.1
  match r, hl with
  | [x], _ =>
    simp only [List.getElem?_cons_zero, Option.some.injEq] at e0
    subst e0
    simp only [List.length_ofFn] at f0 l0
    subst f0
    congr 3
    apply List.ext_getElem? fun k => ?_
    by_cases hk : k < n
    · rw [v0' k (a ⟨k, hk⟩) (by simp [hk])]
      simp [uses, hk]
      norm_num
    · rw [List.getElem?_eq_none (by omega), List.getElem?_eq_none (by simp; omega)]

/-- **C42**: these are the derivatives of the sum. -/
theorem add_gradient (x : Fin n ⊕ Fin n → ℝ) :
    Backprop (fun (y : Fin n ⊕ Fin n → ℝ) i => y (.inl i) + y (.inr i)) x (fun g => Sum.elim g g) ∧
      Backprop (fun (y : Fin n → ℝ) i => y i + y i) (fun i => x (.inl i)) (fun g i => 2 * g i) := by
  constructor
  · refine backprop_affine (fun y i => y (.inl i) + y (.inr i)) 0 (fun y z i => ?_) (fun a y i => ?_) (by simp)
      fun g v => ?_
    · simp only [Pi.add_apply]; ring
    · simp only [Pi.smul_apply, smul_eq_mul]; ring
    · simp [mul_add, Finset.sum_add_distrib]
  · refine backprop_affine (fun y i => y i + y i) 0 (fun y z i => ?_) (fun a y i => ?_) (by simp) fun g v => ?_
    · simp only [Pi.add_apply]; ring
    · simp only [Pi.smul_apply, smul_eq_mul]; ring
    · exact Finset.sum_congr rfl fun i _ => by ring

end

end DW.Props.ElementwiseP
