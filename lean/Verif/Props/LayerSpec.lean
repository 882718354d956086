import Verif.Spec.LayerSpec
import Verif.Props.ContractsImage
/-!
# Layer objects compute what their specification says

From `Spec.Computes`, the conditions on a layer and its tensors, to `Spec.Contract`, what the loops of the backend need.
-/

set_option autoImplicit false

namespace DW.Props.ContractP

open DW DW.Spec DW.ContractL DW.MatL DW.FlatL DW.DerivL DW.LayerL DW.NormL DW.LayoutL DW.Im2colL DW.ConvL DW.PoolL
  DW.Props.ElementwiseP

noncomputable section

/-- A family of contracts, for any parameters, random numbers and choice of maxima, which all hold in the same states
`R θ` of the layer object. -/
def Serves1 (op : Op) {s o : Shape} {P : Nat} (f : (Nat → ℝ) → (Fin P → ℝ) → Elems s → Elems o) (exact : Prop)
    (R : (Fin P → ℝ) → Cpu → Prop) : Prop :=
  (∀ θ θ' l, R θ l → R θ' (l.setParams (List.ofFn θ'))) ∧
  ∀ (r : Nat → ℝ) (pick : List ℝ → Nat) (θ : Fin P → ℝ), ∃ K : Single s o P (f r) θ, K.Ready = R θ ∧
    (∀ ev : Env, ev.rng = r → ev.pick = pick → IsPick pick → K.env ev) ∧ (K.overwrites ↔ op.overwrites = true) ∧
    (exact → ∀ x, DifferentiableAt ℝ (f r θ) x → Exact K x)

theorem full_empty : BatchNormP.Full ⟨[], []⟩ := fun h => absurd rfl h

/-- What is always true of the scratch tensors and constants of a layer object, whatever its parameters; `s` is the shape of its
argument, `o` that of its result. -/
def Sane (real : F32 → ℝ) (s o : Shape) : Op → Cpu → Prop
  | .linear _, l => ∃ st, l = .linear st
  | .relu, l => l = .relu
  | .softmax, l => l = .softmax
  | .batchNorm1D eps alpha, l => ∃ st, l = .batchNorm1D st ∧ st.eps = real eps ∧ st.alpha = real alpha ∧
    BatchNormP.Full st.centered ∧ ∃ B n : Nat, s = [(B : Int), n] ∧ st.std.shape = [(n : Int)] ∧ st.std.vals.length = n
  | .elu a, l => l = .elu (real a)
  | .maxPooling k p q, l => ∃ st, l = .maxPooling st ∧ st.geo = ⟨k.1, k.2, p.1, p.2, q.1, q.2⟩ ∧
    (st.maxIndices.shape = o → st.maxIndices.vals.length = size o)
  | .convolution _ k p q, l => ∃ st, l = .convolution st ∧ st.geo = ⟨k.1, k.2, p.1, p.2, q.1, q.2⟩
  | .leakyReLU a, l => l = .leakyReLU (real a)
  | .sigmoid, l => l = .sigmoid
  | .dropout p, l => ∃ st, l = .dropout st ∧ st.p = real p
  | .globalAvgPooling, l => l = .globalAvgPooling
  | .batchNorm2D eps alpha, l => ∃ st, l = .batchNorm2D st ∧ st.eps = real eps ∧ st.alpha = real alpha ∧
    ∃ N C H W k : Nat, s = [(N : Int), C, H, W] ∧ BatchNormP.Scratch k st.centered st.nhwcIn st.nhwcOut ∧
      (k = 0 ∨ k = N * H * W * C) ∧ st.std.shape = [(C : Int)] ∧ st.std.vals.length = C
  | .add, l => l = .add

/-- What a batch normalisation layer with tensors `t` looks like between the calls. -/
def Form (real : F32 → ℝ) (t : InfoTensors) (s o : Shape) : Op → Cpu → Prop
  | .batchNorm1D eps alpha, l => ∃ (training : Bool) (B n : Nat) (gamma beta rm rv : Fin n → ℝ) (gg gb std : List ℝ) (centered nin nout : Buf),
    l = .batchNorm1D (BatchNormP.layer training (real eps) (real alpha) gamma beta rm rv gg gb std centered nin nout) ∧
    s = [(B : Int), n] ∧ o = [(B : Int), n] ∧ CountFits [(B : Int), n] ∧ BatchNormP.Full centered ∧ std.length = n ∧
    ∃ p, t.params.lookup "gamma" = some p ∧ p.trainable = training
  | .batchNorm2D eps alpha, l => ∃ (training : Bool) (N C H W k : Nat) (gamma beta rm rv : Fin C → ℝ) (gg gb std : List ℝ)
      (centered nin nout : Buf),
    l = .batchNorm2D (BatchNormP.layer training (real eps) (real alpha) gamma beta rm rv gg gb std centered nin nout) ∧
    s = [(N : Int), C, H, W] ∧ o = [(N : Int), C, H, W] ∧ CountFits [(N : Int), H, W, C] ∧ BatchNormP.Scratch k centered nin nout ∧
    (k = 0 ∨ k = N * H * W * C) ∧ std.length = C ∧ ∃ p, t.params.lookup "gamma" = some p ∧ p.trainable = training
  | _, _ => True

/-- How a layer object gets into a state in which it can run with parameters `θ`, and what stays as it is. `S` is what is always
true of the object, `F` what is true between the calls. -/
structure Starts1 (real : F32 → ℝ) (t : InfoTensors) (op : Op) (S F : Cpu → Prop) {P : Nat} (R : (Fin P → ℝ) → Cpu → Prop)
    (θ : Fin P → ℝ) : Prop where
  create : ∃ l, Cpu.create real op t = .ok l ∧ R θ l
  sane : ∀ θ l, R θ l → S l
  give : ∀ l, S l → R θ (l.give t)
  still : Frozen t → ∀ θ θ' l l', R θ l → R θ' l' → l.buffers = l'.buffers
  holds : ∀ θ l, R θ l → (GoodVar real t op → l.VarOk) ∧ l.ParamsFit
  sizes : ∃ z, ∀ θ l, R θ l → l.sizes = z
  form : ∀ θ l, R θ l → F l

theorem Starts1.nonneg {real : F32 → ℝ} {t : InfoTensors} {op : Op} {S F : Cpu → Prop} {P : Nat} {R : (Fin P → ℝ) → Cpu → Prop}
    {θ : Fin P → ℝ} (h : Starts1 real t op S F R θ) (hg : GoodVar real t op) (θ' : Fin P → ℝ) (l : Cpu) (hl : R θ' l) : l.VarOk :=
  (h.holds θ' l hl).1 hg

theorem all_ofFn {n : Nat} {f : Fin n → ℝ} {b : Buf} {s : Shape} (hb : b = ⟨s, List.ofFn f⟩) (h : ∀ v ∈ b.vals, 0 ≤ v) (j : Fin n) :
    0 ≤ f j := h _ (by rw [hb]; exact List.mem_ofFn.2 ⟨j, rfl⟩)

section

variable {real : F32 → ℝ} {t : InfoTensors}

/-- Every kind of layer with one argument. -/
theorem layer1 {op : Op} {s o : Shape} {P : Nat} {f : (Nat → ℝ) → (Fin P → ℝ) → Elems s → Elems o} {θ : Fin P → ℝ} {exact : Prop}
    (h : Computes1 real t op s o P f θ exact) :
    ∃ R, Serves1 op f exact R ∧ Starts1 real t op (Sane real s o op) (Form real t s o op) R θ ∧
      ∀ θ l, R θ l → l.VarOk → DropOk real op o → ∀ mode t', l.Shows mode t' → ∃ f' exact', Computes1 real t' op s o P f' θ exact' := by
  cases h with
  | relu _ θ =>
    refine ⟨fun _ l => l = .relu, ⟨fun _ _ l h => by rw [h]; rfl, fun r pick θ => ⟨reluK s θ, rfl, fun _ _ _ _ => trivial,
      iff_of_false id Bool.false_ne_true, fun _ x hd => relu_exact hd⟩⟩, ⟨⟨_, rfl, rfl⟩, fun _ _ h => h,
      fun _ h => by obtain rfl := h; rfl, fun _ _ _ _ _ h h' => by rw [h, h'], fun _ _ h => by rw [h]; exact ⟨fun _ => trivial, trivial⟩,
      ⟨[], fun _ _ h => by rw [h]; rfl⟩, fun _ _ _ => trivial⟩,
      fun _ _ _ _ _ _ _ _ => ⟨_, _, .relu _ _⟩⟩
  | leakyReLU a _ θ =>
    refine ⟨fun _ l => l = .leakyReLU (real a), ⟨fun _ _ l h => by rw [h]; rfl, fun r pick θ => ⟨leakyReLUK s (real a) θ, rfl,
      fun _ _ _ _ => trivial, iff_of_false id Bool.false_ne_true, fun _ x hd => leakyReLU_exact hd⟩⟩, ⟨⟨_, rfl, rfl⟩, fun _ _ h => h,
      fun _ h => by obtain rfl := h; rfl, fun _ _ _ _ _ h h' => by rw [h, h'], fun _ _ h => by rw [h]; exact ⟨fun _ => trivial, trivial⟩,
      ⟨[], fun _ _ h => by rw [h]; rfl⟩, fun _ _ _ => trivial⟩,
      fun _ _ _ _ _ _ _ _ => ⟨_, _, .leakyReLU _ _ _⟩⟩
  | elu a _ θ =>
    refine ⟨fun _ l => l = .elu (real a), ⟨fun _ _ l h => by rw [h]; rfl, fun r pick θ => ⟨eluK s (real a) θ, rfl,
      fun _ _ _ _ => trivial, iff_of_false id Bool.false_ne_true, fun _ x hd => elu_exact hd⟩⟩, ⟨⟨_, rfl, rfl⟩, fun _ _ h => h,
      fun _ h => by obtain rfl := h; rfl, fun _ _ _ _ _ h h' => by rw [h, h'], fun _ _ h => by rw [h]; exact ⟨fun _ => trivial, trivial⟩,
      ⟨[], fun _ _ h => by rw [h]; rfl⟩, fun _ _ _ => trivial⟩,
      fun _ _ _ _ _ _ _ _ => ⟨_, _, .elu _ _ _⟩⟩
  | sigmoid _ θ =>
    refine ⟨fun _ l => l = .sigmoid, ⟨fun _ _ l h => by rw [h]; rfl, fun r pick θ => ⟨sigmoidK s θ, rfl,
      fun _ _ _ _ => trivial, iff_of_false id Bool.false_ne_true, fun _ x hd => sigmoid_exact⟩⟩, ⟨⟨_, rfl, rfl⟩, fun _ _ h => h,
      fun _ h => by obtain rfl := h; rfl, fun _ _ _ _ _ h h' => by rw [h, h'], fun _ _ h => by rw [h]; exact ⟨fun _ => trivial, trivial⟩,
      ⟨[], fun _ _ h => by rw [h]; rfl⟩, fun _ _ _ => trivial⟩,
      fun _ _ _ _ _ _ _ _ => ⟨_, _, .sigmoid _ _⟩⟩
  | softmax hn θ =>
    refine ⟨fun _ l => l = .softmax, ⟨fun _ _ l h => by rw [h]; rfl, fun r pick θ => ⟨softmaxK hn θ, rfl,
      fun _ _ _ _ => trivial, iff_of_false id Bool.false_ne_true, fun _ x hd => softmax_exact⟩⟩, ⟨⟨_, rfl, rfl⟩, fun _ _ h => h,
      fun _ h => by obtain rfl := h; rfl, fun _ _ _ _ _ h h' => by rw [h, h'], fun _ _ h => by rw [h]; exact ⟨fun _ => trivial, trivial⟩,
      ⟨[], fun _ _ h => by rw [h]; rfl⟩, fun _ _ _ => trivial⟩,
      fun _ _ _ _ _ _ _ _ => ⟨_, _, .softmax hn _⟩⟩
  | @linear B n u rest hne hs hf hc θ tw tb hw hb =>
    obtain ⟨gw, hw, hgw⟩ := hw
    obtain ⟨gb, hb, hgb⟩ := hb
    refine ⟨fun θ l => ∃ gw gb, l = .linear (DenseP.layerOf (weightOf θ) (biasOf θ) gw gb) ∧ gw.length = u * n ∧ gb.length = u,
      ⟨?_, fun r pick θ => ⟨linearK hne hs hf hc θ, rfl, fun _ _ _ _ => trivial, iff_of_false id Bool.false_ne_true, fun _ x _ => linear_exact⟩⟩,
      ⟨⟨.linear (DenseP.layerOf (weightOf θ) (biasOf θ) gw gb), ?_, gw, gb, rfl, by simpa using hgw, by simpa using hgb⟩, ?_, ?_, ?_, ?_, ?_, fun _ _ _ => trivial⟩,
      ?_⟩
    · rintro θ θ' l ⟨gw, gb, rfl, h1, h2⟩
      refine ⟨gw, gb, ?_, h1, h2⟩
      simp only [Cpu.setParams, DenseP.layerOf, Buf.put]
      rw [ofFn_affine θ', List.take_left' (by simp), List.drop_left' (by simp)]
    · simp [Cpu.create, hw, hb, DenseP.layerOf]
    · rintro θ l ⟨gw, gb, rfl, -⟩
      exact ⟨_, rfl⟩
    · rintro l ⟨st, rfl⟩
      exact ⟨gw, gb, by simp [Cpu.give, hw, hb, DenseP.layerOf], by simpa using hgw, by simpa using hgb⟩
    · rintro - θ θ' l l' ⟨gw, gb, rfl, -⟩ ⟨gw', gb', rfl, -⟩
      rfl
    · rintro θ l ⟨gw, gb, rfl, h1, h2⟩
      exact ⟨fun _ => trivial, ⟨rfl, by simpa [DenseP.layerOf] using h1⟩, ⟨rfl, by simpa [DenseP.layerOf] using h2⟩⟩
    · exact ⟨[("weight", u * n), ("bias", u)], by rintro θ l ⟨gw, gb, rfl, -⟩; simp [Cpu.sizes, DenseP.layerOf]⟩
    · rintro θ l ⟨gw, gb, rfl, h1, h2⟩ - - mode t' ⟨h3, h4⟩
      exact ⟨_, _, .linear hne hs hf hc θ ⟨gw, h3, by simpa using h1⟩ ⟨gb, h4, by simpa using h2⟩⟩
  | @batchNorm1D B n eps alpha heps hn hf θ mu var hg hb hm hv =>
    obtain ⟨gg, hg, hgg⟩ := hg
    obtain ⟨gb, hb, hgb⟩ := hb
    refine ⟨fun θ => (batchNorm1dK (B := B) (real eps) (real alpha)
      (0 ≤ real alpha ∧ real alpha ≤ 1 ∧ ∀ j, 0 ≤ var j) (fun h => ⟨h.1, h.2.1⟩) hf θ).Ready,
      ⟨?_, fun r pick θ => ⟨batchNorm1dK (real eps) (real alpha) _ _ hf θ, rfl, fun _ _ _ _ => trivial, iff_of_false id Bool.false_ne_true,
        fun _ x _ => batchNorm1d_exact heps⟩⟩, ⟨?_, ?_, ?_, ?_, ?_, ?_, ?_⟩, ?_⟩
    · rintro θ θ' l ⟨rm, rv, gg, gb, std, centered, nin, nout, rfl, h1, h2, h3, h4, h5⟩
      refine ⟨rm, rv, gg, gb, std, centered, nin, nout, ?_, h1, h2, h3, h4, h5⟩
      simp only [Cpu.setParams, BatchNormP.layer, Buf.put]
      rw [ofFn_gamma_beta θ', List.take_left' (by simp), List.drop_left' (by simp)]
    · have hfr := freshBuf_eq (fun _ => 0) (s := [(n : Int)]) (by intro d hd; simp at hd; omega) hn (k := n) (by simp [count])
      refine ⟨.batchNorm1D (BatchNormP.layer true (real eps) (real alpha) (gammaOf θ) (betaOf θ) mu var gg gb
        ((List.range n).map fun _ => 0) ⟨[], []⟩ ⟨[], []⟩ ⟨[], []⟩), ?_, mu, var, gg, gb, _, _, _, _, rfl, fun h => h.2.2, full_empty, by simp,
        by simpa using hgg, by simpa using hgb⟩
      simp only [HasBuffer] at hm hv
      simp [Cpu.create, Cpu.createBn, hg, hb, hm, hv, dim, Out.idx, hfr, BatchNormP.layer]
    · rintro θ l ⟨rm, rv, gg, gb, std, centered, nin, nout, rfl, h1, h2, h3, h4, h5⟩
      exact ⟨_, rfl, rfl, rfl, h2, B, n, rfl, rfl, h3⟩
    · rintro l ⟨st, rfl, h1, h2, h3, B', n', hs, h4, h5⟩
      obtain ⟨-, rfl⟩ : B = B' ∧ n = n' := by simpa using hs
      simp only [HasBuffer] at hm hv
      refine ⟨mu, var, gg, gb, st.std.vals, st.centered, st.nhwcIn, st.nhwcOut, ?_, fun h => h.2.2, h3, h5, by simpa using hgg, by simpa using hgb⟩
      obtain ⟨g0, b0, gg0, gb0, ⟨sstd, vstd⟩, rm0, rv0, c0, i0, o0, t0, t1, e0, a0⟩ := st
      simp only at h1 h2 h4
      subst h1 h2 h4
      simp [Cpu.give, Cpu.give.bn, hg, hb, hm, hv, BatchNormP.layer]
    · intro hfr
      exact absurd (hfr _ _ hg) (by simp)
    · rintro θ l ⟨rm, rv, gg, gb, std, centered, nin, nout, rfl, h4, -, -, h5, h6⟩
      refine ⟨?_, ⟨rfl, by simpa [BatchNormP.layer] using h5⟩, ⟨rfl, by simpa [BatchNormP.layer] using h6⟩⟩
      rintro ⟨h1, h2, h3⟩ v hv'
      obtain ⟨j, rfl⟩ := List.mem_ofFn.1 hv'
      exact h4 ⟨h1, h2, fun j => all_ofFn rfl (h3 _ hv) j⟩ j
    · exact ⟨[("gamma", n), ("beta", n)], by rintro θ l ⟨rm, rv, gg, gb, std, centered, nin, nout, rfl, -⟩; simp [Cpu.sizes, BatchNormP.layer]⟩
    · rintro θ l ⟨rm, rv, gg, gb, std, centered, nin, nout, rfl, -, h1, h2, -⟩
      exact ⟨_, B, n, gammaOf θ, betaOf θ, rm, rv, gg, gb, std, centered, nin, nout, rfl, rfl, rfl, hf, h1, h2, _, hg, rfl⟩
    · rintro θ l ⟨rm, rv, gg, gb, std, centered, nin, nout, rfl, h1, h2, -, h5, h6⟩ hv' - mode t' ⟨h7, h8, h9, h10⟩
      cases mode with
      | true => exact ⟨_, _, .batchNorm1D eps alpha heps hn hf θ rm rv ⟨gg, h7, by simpa using h5⟩ ⟨gb, h8, by simpa using h6⟩ h9 h10⟩
      | false =>
        exact ⟨_, _, .batchNorm1DEval eps alpha heps hn hf θ rm rv (fun j => all_ofFn (b := ⟨[_], List.ofFn rv⟩) rfl hv' j)
          ⟨gg, h7, by simpa using h5⟩ ⟨gb, h8, by simpa using h6⟩ h9 h10⟩
  | @batchNorm1DEval B n eps alpha heps hn hf θ mu var hpos hg hb hm hv =>
    obtain ⟨gg, hg, hgg⟩ := hg
    obtain ⟨gb, hb, hgb⟩ := hb
    refine ⟨fun θ => (batchNorm1dEvalK (B := B) (real eps) (real alpha) mu var hf θ).Ready,
      ⟨?_, fun r pick θ => ⟨batchNorm1dEvalK (real eps) (real alpha) mu var hf θ, rfl, fun _ _ _ _ => trivial, iff_of_false id Bool.false_ne_true,
        fun h => h.elim⟩⟩, ⟨?_, ?_, ?_, ?_, ?_, ?_, ?_⟩, ?_⟩
    · rintro θ θ' l ⟨rm, rv, gg, gb, std, centered, nin, nout, rfl, h1, h2, h3, h4, h5⟩
      refine ⟨rm, rv, gg, gb, std, centered, nin, nout, ?_, h1, h2, h3, h4, h5⟩
      simp only [Cpu.setParams, BatchNormP.layer, Buf.put]
      rw [ofFn_gamma_beta θ', List.take_left' (by simp), List.drop_left' (by simp)]
    · have hfr := freshBuf_eq (fun _ => 0) (s := [(n : Int)]) (by intro d hd; simp at hd; omega) hn (k := n) (by simp [count])
      refine ⟨.batchNorm1D (BatchNormP.layer false (real eps) (real alpha) (gammaOf θ) (betaOf θ) mu var gg gb
        ((List.range n).map fun _ => 0) ⟨[], []⟩ ⟨[], []⟩ ⟨[], []⟩), ?_, mu, var, gg, gb, _, _, _, _, rfl, ⟨rfl, rfl⟩, full_empty,
        by simp, by simpa using hgg, by simpa using hgb⟩
      simp only [HasBuffer] at hm hv
      simp [Cpu.create, Cpu.createBn, hg, hb, hm, hv, dim, Out.idx, hfr, BatchNormP.layer]
    · rintro θ l ⟨rm, rv, gg, gb, std, centered, nin, nout, rfl, h1, h2, h3, h4, h5⟩
      exact ⟨_, rfl, rfl, rfl, h2, B, n, rfl, rfl, h3⟩
    · rintro l ⟨st, rfl, h1, h2, h3, B', n', hs, h4, h5⟩
      obtain ⟨-, rfl⟩ : B = B' ∧ n = n' := by simpa using hs
      simp only [HasBuffer] at hm hv
      refine ⟨mu, var, gg, gb, st.std.vals, st.centered, st.nhwcIn, st.nhwcOut, ?_, ⟨rfl, rfl⟩, h3, h5, by simpa using hgg, by simpa using hgb⟩
      obtain ⟨g0, b0, gg0, gb0, ⟨sstd, vstd⟩, rm0, rv0, c0, i0, o0, t0, t1, e0, a0⟩ := st
      simp only at h1 h2 h4
      subst h1 h2 h4
      simp [Cpu.give, Cpu.give.bn, hg, hb, hm, hv, BatchNormP.layer]
    · rintro - θ θ' l l' ⟨rm, rv, gg, gb, std, centered, nin, nout, rfl, ⟨rfl, rfl⟩, -⟩ ⟨rm', rv', gg', gb', std', centered', nin', nout', rfl, ⟨rfl, rfl⟩, -⟩
      rfl
    · rintro θ l ⟨rm, rv, gg, gb, std, centered, nin, nout, rfl, ⟨rfl, rfl⟩, -, -, h5, h6⟩
      refine ⟨fun _ v hv' => ?_, ⟨rfl, by simpa [BatchNormP.layer] using h5⟩, ⟨rfl, by simpa [BatchNormP.layer] using h6⟩⟩
      obtain ⟨j, rfl⟩ := List.mem_ofFn.1 hv'
      exact hpos j
    · exact ⟨[("gamma", n), ("beta", n)], by rintro θ l ⟨rm, rv, gg, gb, std, centered, nin, nout, rfl, -⟩; simp [Cpu.sizes, BatchNormP.layer]⟩
    · rintro θ l ⟨rm, rv, gg, gb, std, centered, nin, nout, rfl, -, h1, h2, -⟩
      exact ⟨_, B, n, gammaOf θ, betaOf θ, rm, rv, gg, gb, std, centered, nin, nout, rfl, rfl, rfl, hf, h1, h2, _, hg, rfl⟩
    · rintro θ l ⟨rm, rv, gg, gb, std, centered, nin, nout, rfl, h1, h2, -, h5, h6⟩ hv' - mode t' ⟨h7, h8, h9, h10⟩
      cases mode with
      | true => exact ⟨_, _, .batchNorm1D eps alpha heps hn hf θ rm rv ⟨gg, h7, by simpa using h5⟩ ⟨gb, h8, by simpa using h6⟩ h9 h10⟩
      | false =>
        exact ⟨_, _, .batchNorm1DEval eps alpha heps hn hf θ rm rv (fun j => all_ofFn (b := ⟨[_], List.ofFn rv⟩) rfl hv' j)
          ⟨gg, h7, by simpa using h5⟩ ⟨gb, h8, by simpa using h6⟩ h9 h10⟩
  | @batchNorm2D N C H W eps alpha heps hC hn hf θ mu var hg hb hm hv =>
    obtain ⟨gg, hg, hgg⟩ := hg
    obtain ⟨gb, hb, hgb⟩ := hb
    refine ⟨fun θ => (batchNorm2dK (N := N) (H := H) (W := W) hC (real eps) (real alpha)
      (0 ≤ real alpha ∧ real alpha ≤ 1 ∧ ∀ j, 0 ≤ var j) (fun h => ⟨h.1, h.2.1⟩) hf θ).Ready,
      ⟨?_, fun r pick θ => ⟨batchNorm2dK hC (real eps) (real alpha) _ _ hf θ, rfl, fun _ _ _ _ => trivial, iff_of_true trivial rfl,
        fun _ x _ => batchNorm2d_exact heps⟩⟩, ⟨?_, ?_, ?_, ?_, ?_, ?_, ?_⟩, ?_⟩
    · rintro θ θ' l ⟨rm, rv, gg, gb, std, centered, nin, nout, k, rfl, h1, h2, h3, h4, h5, h6⟩
      refine ⟨rm, rv, gg, gb, std, centered, nin, nout, k, ?_, h1, h2, h3, h4, h5, h6⟩
      simp only [Cpu.setParams, BatchNormP.layer, Buf.put]
      rw [ofFn_gamma_beta θ', List.take_left' (by simp), List.drop_left' (by simp)]
    · have hfr := freshBuf_eq (fun _ => 0) (s := [(C : Int)]) (by intro d hd; simp at hd; omega) hn (k := C) (by simp [count])
      refine ⟨.batchNorm2D (BatchNormP.layer true (real eps) (real alpha) (gammaOf θ) (betaOf θ) mu var gg gb
        ((List.range C).map fun _ => 0) ⟨[], []⟩ ⟨[], []⟩ ⟨[], []⟩), ?_, mu, var, gg, gb, _, _, _, _, 0, rfl, fun h => h.2.2,
        ⟨rfl, rfl, rfl⟩, .inl rfl, by simp, by simpa using hgg, by simpa using hgb⟩
      simp only [HasBuffer] at hm hv
      simp [Cpu.create, Cpu.createBn, hg, hb, hm, hv, dim, Out.idx, hfr, BatchNormP.layer]
    · rintro θ l ⟨rm, rv, gg, gb, std, centered, nin, nout, k, rfl, h1, h2, h3, h4, h5, h6⟩
      exact ⟨_, rfl, rfl, rfl, N, C, H, W, k, rfl, h2, h3, rfl, h4⟩
    · rintro l ⟨st, rfl, h1, h2, N', C', H', W', k, hs, h3, hk, h4, h5⟩
      obtain ⟨rfl, rfl, rfl, rfl⟩ : N = N' ∧ C = C' ∧ H = H' ∧ W = W' := by simpa using hs
      simp only [HasBuffer] at hm hv
      refine ⟨mu, var, gg, gb, st.std.vals, st.centered, st.nhwcIn, st.nhwcOut, k, ?_, fun h => h.2.2, h3, hk, h5, by simpa using hgg,
        by simpa using hgb⟩
      obtain ⟨g0, b0, gg0, gb0, ⟨sstd, vstd⟩, rm0, rv0, c0, i0, o0, t0, t1, e0, a0⟩ := st
      simp only at h1 h2 h4
      subst h1 h2 h4
      simp [Cpu.give, Cpu.give.bn, hg, hb, hm, hv, BatchNormP.layer]
    · intro hfr
      exact absurd (hfr _ _ hg) (by simp)
    · rintro θ l ⟨rm, rv, gg, gb, std, centered, nin, nout, k, rfl, h4, -, -, -, h5, h6⟩
      refine ⟨?_, ⟨rfl, by simpa [BatchNormP.layer] using h5⟩, ⟨rfl, by simpa [BatchNormP.layer] using h6⟩⟩
      rintro ⟨h1, h2, h3⟩ v hv'
      obtain ⟨j, rfl⟩ := List.mem_ofFn.1 hv'
      exact h4 ⟨h1, h2, fun j => all_ofFn rfl (h3 _ hv) j⟩ j
    · exact ⟨[("gamma", C), ("beta", C)], by rintro θ l ⟨rm, rv, gg, gb, std, centered, nin, nout, k, rfl, -⟩; simp [Cpu.sizes, BatchNormP.layer]⟩
    · rintro θ l ⟨rm, rv, gg, gb, std, centered, nin, nout, k, rfl, -, h1, h2, h3, -⟩
      exact ⟨_, N, C, H, W, k, gammaOf θ, betaOf θ, rm, rv, gg, gb, std, centered, nin, nout, rfl, rfl, rfl, hf, h1, h2, h3, _, hg, rfl⟩
    · rintro θ l ⟨rm, rv, gg, gb, std, centered, nin, nout, k, rfl, h1, h2, -, -, h5, h6⟩ hv' - mode t' ⟨h7, h8, h9, h10⟩
      cases mode with
      | true => exact ⟨_, _, .batchNorm2D eps alpha heps hC hn hf θ rm rv ⟨gg, h7, by simpa using h5⟩ ⟨gb, h8, by simpa using h6⟩ h9 h10⟩
      | false =>
        exact ⟨_, _, .batchNorm2DEval eps alpha heps hC hn hf θ rm rv (fun j => all_ofFn (b := ⟨[_], List.ofFn rv⟩) rfl hv' j)
          ⟨gg, h7, by simpa using h5⟩ ⟨gb, h8, by simpa using h6⟩ h9 h10⟩
  | @batchNorm2DEval N C H W eps alpha heps hC hn hf θ mu var hpos hg hb hm hv =>
    obtain ⟨gg, hg, hgg⟩ := hg
    obtain ⟨gb, hb, hgb⟩ := hb
    refine ⟨fun θ => (batchNorm2dEvalK (N := N) (H := H) (W := W) hC (real eps) (real alpha) mu var hf θ).Ready,
      ⟨?_, fun r pick θ => ⟨batchNorm2dEvalK hC (real eps) (real alpha) mu var hf θ, rfl, fun _ _ _ _ => trivial, iff_of_true trivial rfl,
        fun h => h.elim⟩⟩, ⟨?_, ?_, ?_, ?_, ?_, ?_, ?_⟩, ?_⟩
    · rintro θ θ' l ⟨rm, rv, gg, gb, std, centered, nin, nout, k, rfl, h1, h2, h3, h4, h5, h6⟩
      refine ⟨rm, rv, gg, gb, std, centered, nin, nout, k, ?_, h1, h2, h3, h4, h5, h6⟩
      simp only [Cpu.setParams, BatchNormP.layer, Buf.put]
      rw [ofFn_gamma_beta θ', List.take_left' (by simp), List.drop_left' (by simp)]
    · have hfr := freshBuf_eq (fun _ => 0) (s := [(C : Int)]) (by intro d hd; simp at hd; omega) hn (k := C) (by simp [count])
      refine ⟨.batchNorm2D (BatchNormP.layer false (real eps) (real alpha) (gammaOf θ) (betaOf θ) mu var gg gb
        ((List.range C).map fun _ => 0) ⟨[], []⟩ ⟨[], []⟩ ⟨[], []⟩), ?_, mu, var, gg, gb, _, _, _, _, 0, rfl, ⟨rfl, rfl⟩,
        ⟨rfl, rfl, rfl⟩, .inl rfl, by simp, by simpa using hgg, by simpa using hgb⟩
      simp only [HasBuffer] at hm hv
      simp [Cpu.create, Cpu.createBn, hg, hb, hm, hv, dim, Out.idx, hfr, BatchNormP.layer]
    · rintro θ l ⟨rm, rv, gg, gb, std, centered, nin, nout, k, rfl, h1, h2, h3, h4, h5, h6⟩
      exact ⟨_, rfl, rfl, rfl, N, C, H, W, k, rfl, h2, h3, rfl, h4⟩
    · rintro l ⟨st, rfl, h1, h2, N', C', H', W', k, hs, h3, hk, h4, h5⟩
      obtain ⟨rfl, rfl, rfl, rfl⟩ : N = N' ∧ C = C' ∧ H = H' ∧ W = W' := by simpa using hs
      simp only [HasBuffer] at hm hv
      refine ⟨mu, var, gg, gb, st.std.vals, st.centered, st.nhwcIn, st.nhwcOut, k, ?_, ⟨rfl, rfl⟩, h3, hk, h5, by simpa using hgg,
        by simpa using hgb⟩
      obtain ⟨g0, b0, gg0, gb0, ⟨sstd, vstd⟩, rm0, rv0, c0, i0, o0, t0, t1, e0, a0⟩ := st
      simp only at h1 h2 h4
      subst h1 h2 h4
      simp [Cpu.give, Cpu.give.bn, hg, hb, hm, hv, BatchNormP.layer]
    · rintro - θ θ' l l' ⟨rm, rv, gg, gb, std, centered, nin, nout, k, rfl, ⟨rfl, rfl⟩, -⟩ ⟨rm', rv', gg', gb', std', centered', nin', nout', k', rfl, ⟨rfl, rfl⟩, -⟩
      rfl
    · rintro θ l ⟨rm, rv, gg, gb, std, centered, nin, nout, k, rfl, ⟨rfl, rfl⟩, -, -, -, h5, h6⟩
      refine ⟨fun _ v hv' => ?_, ⟨rfl, by simpa [BatchNormP.layer] using h5⟩, ⟨rfl, by simpa [BatchNormP.layer] using h6⟩⟩
      obtain ⟨j, rfl⟩ := List.mem_ofFn.1 hv'
      exact hpos j
    · exact ⟨[("gamma", C), ("beta", C)], by rintro θ l ⟨rm, rv, gg, gb, std, centered, nin, nout, k, rfl, -⟩; simp [Cpu.sizes, BatchNormP.layer]⟩
    · rintro θ l ⟨rm, rv, gg, gb, std, centered, nin, nout, k, rfl, -, h1, h2, h3, -⟩
      exact ⟨_, N, C, H, W, k, gammaOf θ, betaOf θ, rm, rv, gg, gb, std, centered, nin, nout, rfl, rfl, rfl, hf, h1, h2, h3, _, hg, rfl⟩
    · rintro θ l ⟨rm, rv, gg, gb, std, centered, nin, nout, k, rfl, h1, h2, -, -, h5, h6⟩ hv' - mode t' ⟨h7, h8, h9, h10⟩
      cases mode with
      | true => exact ⟨_, _, .batchNorm2D eps alpha heps hC hn hf θ rm rv ⟨gg, h7, by simpa using h5⟩ ⟨gb, h8, by simpa using h6⟩ h9 h10⟩
      | false =>
        exact ⟨_, _, .batchNorm2DEval eps alpha heps hC hn hf θ rm rv (fun j => all_ofFn (b := ⟨[_], List.ofFn rv⟩) rfl hv' j)
          ⟨gg, h7, by simpa using h5⟩ ⟨gb, h8, by simpa using h6⟩ h9 h10⟩
  | @globalAvgPooling N C H W hH hW θ =>
    refine ⟨fun _ l => l = .globalAvgPooling, ⟨fun _ _ l h => by rw [h]; rfl, fun r pick θ => ⟨gapK (size_pooled N C) θ, rfl,
      fun _ _ _ _ => trivial, iff_of_false id Bool.false_ne_true, fun _ x hd => gap_exact⟩⟩, ⟨⟨_, rfl, rfl⟩, fun _ _ h => h,
      fun _ h => by obtain rfl := h; rfl, fun _ _ _ _ _ h h' => by rw [h, h'], fun _ _ h => by rw [h]; exact ⟨fun _ => trivial, trivial⟩,
      ⟨[], fun _ _ h => by rw [h]; rfl⟩, fun _ _ _ => trivial⟩,
      fun _ _ _ _ _ _ _ _ => ⟨_, _, .globalAvgPooling hH hW _⟩⟩
  | @dropout p hp _ sm m hm θ =>
    obtain ⟨g, hm, -⟩ := hm
    refine ⟨fun _ l => ∃ sm mask, l = .dropout ⟨⟨sm, mask⟩, true, real p⟩ ∧ mask.length = size s, ⟨?_, fun r pick θ =>
      ⟨dropoutK s (real p) r θ, rfl, fun ev h _ _ i _ => congrFun h i, iff_of_false id Bool.false_ne_true, fun h0 x _ => ?_⟩⟩,
      ⟨⟨.dropout ⟨⟨sm, List.ofFn m⟩, true, real p⟩, ?_, sm, _, rfl, by simp⟩, ?_, ?_, ?_, ?_, ?_, fun _ _ _ => trivial⟩, ?_⟩
    · rintro _ _ l ⟨sm, mask, rfl, h⟩
      exact ⟨sm, mask, rfl, h⟩
    · rw [h0]; exact dropout_exact
    · simp [Cpu.create, hm]
    · rintro θ l ⟨sm, mask, rfl, h⟩
      exact ⟨_, rfl, rfl⟩
    · rintro l ⟨⟨m0, t0, p0⟩, rfl, h1⟩
      obtain rfl : p0 = real p := h1
      exact ⟨sm, List.ofFn m, by simp [Cpu.give, hm], by simp⟩
    · rintro - θ θ' l l' ⟨sm, mask, rfl, -⟩ ⟨sm', mask', rfl, -⟩
      rfl
    · rintro θ l ⟨sm, mask, rfl, -⟩
      exact ⟨fun _ => trivial, trivial⟩
    · exact ⟨[("mask", size s)], by rintro θ l ⟨sm, mask, rfl, h⟩; simp [Cpu.sizes, h]⟩
    · rintro θ l ⟨sm, mask, rfl, h⟩ - hd mode t' ⟨g, h1, h2⟩
      obtain ⟨m', rfl⟩ : ∃ m' : Elems s, mask = List.ofFn m' :=
        ⟨fun i => mask[i]'(by rw [h]; exact i.isLt), List.ext_getElem (by simp [h]) fun _ _ _ => by simp⟩
      cases mode with
      | true => exact ⟨_, _, .dropout p (hd p rfl).1 s m' ⟨g, h1, h2⟩ θ⟩
      | false => exact ⟨_, _, .dropoutEval p s (hd p rfl).2 m' ⟨g, h1, h2⟩ θ⟩
  | @dropoutEval p _ hs sm m hm θ =>
    obtain ⟨g, hm, -⟩ := hm
    refine ⟨fun _ l => ∃ sm, l = .dropout ⟨⟨sm, List.ofFn m⟩, false, real p⟩, ⟨?_, fun r pick θ =>
      ⟨dropoutEvalK s hs (real p) m θ, rfl, fun _ _ _ _ => trivial, iff_of_false id Bool.false_ne_true, fun h x _ => dropoutEval_exact h⟩⟩,
      ⟨⟨.dropout ⟨⟨sm, List.ofFn m⟩, false, real p⟩, ?_, sm, rfl⟩, ?_, ?_, ?_, ?_, ?_, fun _ _ _ => trivial⟩, ?_⟩
    · rintro _ _ l ⟨sm, rfl⟩
      exact ⟨sm, rfl⟩
    · simp [Cpu.create, hm]
    · rintro θ l ⟨sm, rfl⟩
      exact ⟨_, rfl, rfl⟩
    · rintro l ⟨⟨m0, t0, p0⟩, rfl, h1⟩
      obtain rfl : p0 = real p := h1
      exact ⟨sm, by simp [Cpu.give, hm]⟩
    · rintro - θ θ' l l' ⟨sm, rfl⟩ ⟨sm', rfl⟩
      rfl
    · rintro θ l ⟨sm, rfl⟩
      exact ⟨fun _ => trivial, trivial⟩
    · exact ⟨[("mask", size s)], by rintro θ l ⟨sm, rfl⟩; simp [Cpu.sizes]⟩
    · rintro θ l ⟨sm, rfl⟩ - hd mode t' ⟨g, h1, h2⟩
      cases mode with
      | true => exact ⟨_, _, .dropout p (hd p rfl).1 s m ⟨g, h1, h2⟩ θ⟩
      | false => exact ⟨_, _, .dropoutEval p s (hd p rfl).2 m ⟨g, h1, h2⟩ θ⟩
  | @convolution N C O a b ha hb hf hpos θ tw tb hw hbias =>
    obtain ⟨gw, hw, hgw⟩ := hw
    obtain ⟨gb, hbias, hgb⟩ := hbias
    refine ⟨fun θ => (convK (N := N) ⟨ha.1, ha.2, ha.3⟩ ⟨hb.1, hb.2, hb.3⟩ hf hpos θ).Ready,
      ⟨?_, fun r pick θ => ⟨convK ⟨ha.1, ha.2, ha.3⟩ ⟨hb.1, hb.2, hb.3⟩ hf hpos θ, rfl, fun _ _ _ _ => trivial, iff_of_false id Bool.false_ne_true,
        fun _ x _ => conv_exact⟩⟩,
      ⟨⟨.convolution (ConvP.layer (kernelOf θ) (shiftOf θ) gw gb ⟨[], []⟩), ?_, gw, gb, _, rfl, ?_, by simpa using hgb⟩, ?_, ?_, ?_, ?_, ?_, fun _ _ _ => trivial⟩,
      ?_⟩
    · rintro θ θ' l ⟨gw, gb, buf, rfl, h1, h2⟩
      refine ⟨gw, gb, buf, ?_, h1, h2⟩
      simp only [Cpu.setParams, ConvP.layer, Buf.put]
      rw [ofFn_kernel θ', List.take_left' (by rw [flat4_length, flat4_length]), List.drop_left' (by rw [flat4_length, flat4_length])]
    · simp [Cpu.create, hw, hbias, ConvP.layer, Im2colL.geo]
    · rw [hgw, flat4_length]; ring
    · rintro θ l ⟨gw, gb, buf, rfl, -⟩
      exact ⟨_, rfl, rfl⟩
    · rintro l ⟨⟨w0, b0, gw0, gb0, buf, g0⟩, rfl, h1⟩
      obtain rfl : g0 = _ := h1
      exact ⟨gw, gb, buf, by simp [Cpu.give, hw, hbias, ConvP.layer, Im2colL.geo], by rw [hgw, flat4_length]; ring, by simpa using hgb⟩
    · rintro - θ θ' l l' ⟨gw, gb, buf, rfl, -⟩ ⟨gw', gb', buf', rfl, -⟩
      rfl
    · rintro θ l ⟨gw, gb, buf, rfl, h1, h2⟩
      exact ⟨fun _ => trivial, ⟨rfl, by simp only [ConvP.layer]; rw [h1, flat4_length]; ring⟩, ⟨rfl, by simpa [ConvP.layer] using h2⟩⟩
    · exact ⟨_, by rintro θ l ⟨gw, gb, buf, rfl, -⟩; simp only [Cpu.sizes, ConvP.layer, flat4_length, List.length_ofFn]; rfl⟩
    · rintro θ l ⟨gw, gb, buf, rfl, h1, h2⟩ - - mode t' ⟨h3, h4⟩
      exact ⟨_, _, .convolution ha hb hf hpos θ ⟨gw, h3, by rw [h1, flat4_length]; ring⟩ ⟨gb, h4, by simpa using h2⟩⟩
  | @maxPooling N C a b ha hb hf hf' θ =>
    refine ⟨fun _ l => ∃ st, l = .maxPooling st ∧ MaxPoolP.Ready N C a b st, ⟨?_, fun r pick θ =>
      ⟨poolK pick ⟨ha.1, ha.2, ha.3⟩ ⟨hb.1, hb.2, hb.3⟩ hf hf' θ, rfl, fun ev _ h1 h2 => ⟨h1, h2⟩, iff_of_false id Bool.false_ne_true,
        fun _ x hd => pool_exact hd⟩⟩, ⟨⟨_, rfl, _, rfl, rfl, fun h => by simp at h⟩, ?_, ?_, ?_, ?_, ?_, fun _ _ _ => trivial⟩,
      fun _ _ _ _ _ _ _ _ => ⟨_, _, .maxPooling ha hb hf hf' _⟩⟩
    · rintro _ _ l ⟨st, rfl, h⟩
      exact ⟨st, rfl, h⟩
    · rintro θ l ⟨st, rfl, h⟩
      exact ⟨st, rfl, h.geo, fun hs => by rw [h.full hs, size_img]⟩
    · rintro l ⟨st, rfl, h1, h2⟩
      exact ⟨st, rfl, h1, fun hs => by rw [h2 hs, size_img]⟩
    · rintro - θ θ' l l' ⟨st, rfl, -⟩ ⟨st', rfl, -⟩
      rfl
    · rintro θ l ⟨st, rfl, -⟩
      exact ⟨fun _ => trivial, trivial⟩
    · exact ⟨[], by rintro θ l ⟨st, rfl, -⟩; rfl⟩

end

/-- As `Serves1`, for any number of arguments. -/
def Serves (op : Op) {n : Nat} {ishape : Fin n → Shape} {o : Shape} {P : Nat}
    (f : (Nat → ℝ) → (Fin P → ℝ) → Args ishape → Elems o) (exact : Prop) (R : (Fin P → ℝ) → Cpu → Prop) : Prop :=
  (∀ θ θ' l, R θ l → R θ' (l.setParams (List.ofFn θ'))) ∧
  ∀ (r : Nat → ℝ) (pick : List ℝ → Nat) (θ : Fin P → ℝ), ∃ K : Contract ishape o P (f r) θ, K.Ready = R θ ∧
    (∀ ev : Env, ev.rng = r → ev.pick = pick → IsPick pick → K.env ev) ∧ (K.overwrites ↔ op.overwrites = true) ∧
    (exact → ∀ X, DifferentiableAt ℝ (f r θ) X → ∀ bk pk l, K.After X bk pk l →
      BackpropN (f r θ) X bk ∧ Backprop (fun t => f r t X) θ pk)

/-- **C24–C42**, together: a layer object created from an operation and tensors that `Computes` describes meets the
contract of that function. -/
theorem layer {real : F32 → ℝ} {t : InfoTensors} {op : Op} {n : Nat} {ishape : Fin n → Shape} {o : Shape} {P : Nat}
    {f : (Nat → ℝ) → (Fin P → ℝ) → Args ishape → Elems o} {θ : Fin P → ℝ} {exact : Prop}
    (h : Computes real t op ishape o P f θ exact) :
    ∃ R, Serves op f exact R ∧ Starts1 real t op (fun l => ∀ s ∈ (List.ofFn ishape).head?, Sane real s o op l)
        (fun l => ∀ s ∈ (List.ofFn ishape).head?, Form real t s o op l) R θ ∧
      ∀ θ l, R θ l → l.VarOk → DropOk real op o → ∀ mode t', l.Shows mode t' →
        ∃ f' exact', Computes real t' op ishape o P f' θ exact' := by
  cases h with
  | @one _ _ _ s _ o' _ f _ _ hn hs ho h =>
    subst hn ho
    obtain rfl : ishape = fun _ => s := by
      funext j
      rw [← hs]
      congr 1
      exact Subsingleton.elim _ _
    obtain ⟨R, ⟨h1, h2⟩, h3, h4⟩ := layer1 h
    refine ⟨R, ⟨h1, fun r pick θ => ?_⟩, ⟨h3.create, fun θ l h s' hs => ?_, fun l h => h3.give l (h s (by simp)), h3.still,
      h3.holds, h3.sizes, fun θ l h s' hs => ?_⟩, fun θ l h hv hd mode t' ht => ?_⟩
    rotate_left
    · obtain rfl : s = s' := by simpa using hs
      exact h3.sane θ l h
    · obtain rfl : s = s' := by simpa using hs
      exact h3.form θ l h
    · obtain ⟨f', exact', h'⟩ := h4 θ l h hv hd mode t' ht
      exact ⟨_, _, .one rfl rfl rfl h'⟩
    obtain ⟨K, hK, he, hov, hex⟩ := h2 r pick θ
    refine ⟨K.contract, hK, he, hov, fun hx X hd bk pk l hA => ?_⟩
    obtain ⟨b, hb, rfl⟩ := hA
    have hd' : DifferentiableAt ℝ (f r θ) (X 0) := by
      let q : Elems s →L[ℝ] (Args fun _ : Fin 1 => s) := ContinuousLinearMap.pi fun _ => ContinuousLinearMap.id ℝ _
      have hq : q (X 0) = X := by
        funext j
        have : j = 0 := Subsingleton.elim _ _
        subst this
        rfl
      have hd2 : DifferentiableAt ℝ (fun X : Args fun _ : Fin 1 => s => f r θ (X 0)) (q (X 0)) := by rw [hq]; exact hd
      exact DifferentiableAt.comp (X 0) (g := fun X : Args fun _ : Fin 1 => s => f r θ (X 0)) hd2 q.differentiableAt
    obtain ⟨e1, e2⟩ := hex hx (X 0) hd' b pk l hb
    exact ⟨backpropN_one e1, e2⟩
  | @add _ _ _ hn h0 h1 _ =>
    subst hn
    obtain rfl : ishape = fun _ => o := by
      funext j
      match j with
      | 0 => exact h0
      | 1 => exact h1
    refine ⟨fun _ l => l = .add, ⟨fun _ _ l h => by rw [h]; rfl, fun r pick θ => ⟨addK o θ, rfl, fun _ _ _ _ => trivial,
      iff_of_false id Bool.false_ne_true, fun _ X _ bk pk l hA => add_exact hA⟩⟩, ⟨⟨.add, rfl, rfl⟩, fun _ _ h _ _ => h,
      fun l h => ?_, fun _ _ _ _ _ h h' => by rw [h, h'], fun _ _ h => by rw [h]; exact ⟨fun _ => trivial, trivial⟩,
      ⟨[], fun _ _ h => by rw [h]; rfl⟩, fun _ _ _ _ _ => trivial⟩,
      fun _ _ _ _ _ _ _ _ => ⟨_, _, .add rfl rfl rfl _⟩⟩
    obtain rfl : l = .add := h o (by simp)
    rfl

end

end DW.Props.ContractP
