import Verif.Spec.Fits
import Verif.Lemmas.Contracts
import Verif.Lemmas.Typed
import Verif.Props.Conv
/-! # Layers that fit compute a function -/

set_option autoImplicit false

namespace DW.CompleteL

open DW DW.Spec DW.MatL DW.FlatL DW.ContractL

noncomputable section

variable {real : F32 → ℝ} {t : InfoTensors}

/-- A list as a function. -/
theorem ofFn_exists {n : Nat} {l : List ℝ} (h : l.length = n) : ∃ f : Fin n → ℝ, l = List.ofFn f := by
  subst h
  exact ⟨l.get, (List.ofFn_get l).symm⟩

theorem rowMajor_exists {m n : Nat} {l : List ℝ} (h : l.length = m * n) : ∃ f : Fin m → Fin n → ℝ, l = rowMajor f := by
  obtain ⟨f, rfl⟩ := ofFn_exists h
  refine ⟨Function.curry fun p => f ((matE rfl).symm p), ?_⟩
  rw [← ofFn_mat rfl]
  simp

theorem flat4_exists {a b c d : Nat} {l : List ℝ} (h : l.length = a * (b * (c * d))) :
    ∃ f : Fin a → Fin b → Fin c → Fin d → ℝ, l = flat4 f := by
  obtain ⟨f, rfl⟩ := ofFn_exists h
  refine ⟨arr4 fun p => f ((imgE rfl).symm p), ?_⟩
  rw [← ofFn_img rfl]
  simp

theorem size_one (n : Nat) : size [(n : Int)] = n := by simp [size, count]

/-- Two parameters in one list. -/
theorem join {P : Nat} {A B : Type} (E : Fin P ≃ A ⊕ B) (f : A → ℝ) (g : B → ℝ) :
    ∃ θ : Fin P → ℝ, (∀ a, θ (E.symm (.inl a)) = f a) ∧ ∀ b, θ (E.symm (.inr b)) = g b :=
  ⟨fun i => Sum.elim f g (E i), fun a => by simp, fun b => by simp⟩

/-- A window that fits is a valid direction. -/
theorem axis {H oh : Nat} {k p st : Int} (h : WindowFits k p st) (ho : windowOut H k p st = .ok (oh : Int)) :
    ∃ a : Axis, a.Plain ∧ H = a.size ∧ k = a.kernel ∧ p = a.pad ∧ st = a.stride ∧ oh = a.out ∧ a.dil = 1 := by
  obtain ⟨h1, h2, h3⟩ := h
  obtain ⟨k, rfl⟩ := Int.eq_ofNat_of_zero_le h1.le
  obtain ⟨p, rfl⟩ := Int.eq_ofNat_of_zero_le h2
  obtain ⟨st, rfl⟩ := Int.eq_ofNat_of_zero_le h3.le
  refine ⟨⟨H, k, p, st, 1, oh⟩, ⟨?_, rfl, by simpa using h1⟩, rfl, rfl, rfl, rfl, rfl, rfl⟩
  exact Props.ConvP.windowOut_valid (by simpa using h3) rfl ho

theorem window_outs {N x oh ow a b : Int} {wh ww : Out Int}
    (h : (do
      let h ← wh
      let w ← ww
      pure [a, b, h, w]) = Out.ok [N, x, oh, ow]) : wh = .ok oh ∧ ww = .ok ow := by
  obtain ⟨h1, e1, h⟩ := Out.bind_eq_ok.1 h
  obtain ⟨w1, e2, h⟩ := Out.bind_eq_ok.1 h
  cases h
  exact ⟨e1, e2⟩

/-- Layers with one argument. -/
theorem computes1_exists {op : Op} {s o : Shape} (hop : op ≠ .add) (ho : outShape op [s] = .ok o) {ps bs : List (String × Shape)}
    (hi : initEntries op [s] = .ok (ps, bs)) (hf : Fits real op [s] o) (ht : TensorsFit t op [s]) :
    ∃ P fn θ ex, Computes1 real t op s o P fn θ ex := by
  obtain ⟨train, ht⟩ := ht
  obtain ⟨hp, hb⟩ := ht ps bs hi
  clear ht
  cases op with
  | add => exact absurd rfl hop
  | relu => cases ho; exact ⟨_, _, _, _, .relu _ 0⟩
  | sigmoid => cases ho; exact ⟨_, _, _, _, .sigmoid _ 0⟩
  | leakyReLU a => cases ho; exact ⟨_, _, _, _, .leakyReLU a _ 0⟩
  | elu a => cases ho; exact ⟨_, _, _, _, .elu a _ 0⟩
  | softmax =>
    cases ho
    obtain ⟨B, n, rfl, hn⟩ := hf
    exact ⟨_, _, _, _, .softmax hn 0⟩
  | dropout p =>
    cases ho
    obtain ⟨hp1, hs⟩ := hf
    simp only [initEntries] at hi
    obtain ⟨-, -, hi⟩ := Out.bind_eq_ok.1 hi
    cases hi
    obtain ⟨vals, h1, h2⟩ := hp _ (List.mem_singleton_self _)
    obtain ⟨m, rfl⟩ := ofFn_exists h2
    cases train with
    | true => exact ⟨_, _, _, _, .dropout p hp1 _ m h1 0⟩
    | false => exact ⟨_, _, _, _, .dropoutEval p _ hs m h1 0⟩
  | globalAvgPooling =>
    obtain ⟨N, C, H, W, rfl, hH, hW⟩ := hf
    cases ho
    exact ⟨_, _, _, _, .globalAvgPooling hH hW 0⟩
  | batchNorm1D eps alpha =>
    obtain ⟨he, B, n, rfl, h1, h2⟩ := hf
    cases ho
    simp only [initEntries, Out.idx, List.getElem?_cons_succ, List.getElem?_cons_zero, Out.bind_ok] at hi
    obtain ⟨-, -, hi⟩ := Out.bind_eq_ok.1 hi
    cases hi
    obtain ⟨g, g1, g2⟩ := hp _ (.head _)
    obtain ⟨b, b1, b2⟩ := hp _ (.tail _ (.head _))
    obtain ⟨mu, m1, m2, -⟩ := hb _ (.head _)
    obtain ⟨var, v1, v2, v3⟩ := hb _ (.tail _ (.head _))
    simp only [size_one] at g2 b2 m2 v2
    obtain ⟨g, rfl⟩ := ofFn_exists g2
    obtain ⟨b, rfl⟩ := ofFn_exists b2
    obtain ⟨mu, rfl⟩ := ofFn_exists m2
    obtain ⟨var, rfl⟩ := ofFn_exists v2
    obtain ⟨θ, t1, t2⟩ := join (sumE (P := n + n) rfl) g b
    have e1 : gammaOf θ = g := funext t1
    have e2 : betaOf θ = b := funext t2
    cases train with
    | true => exact ⟨_, _, _, _, .batchNorm1D eps alpha he h1 h2 θ mu var (by rw [e1]; exact g1) (by rw [e2]; exact b1) m1 v1⟩
    | false =>
      refine ⟨_, _, _, _, .batchNorm1DEval eps alpha he h1 h2 θ mu var (fun j => v3 rfl _ ?_) (by rw [e1]; exact g1) (by rw [e2]; exact b1) m1 v1⟩
      exact List.mem_ofFn.2 ⟨j, rfl⟩
  | batchNorm2D eps alpha =>
    obtain ⟨he, N, n, H, W, rfl, hC, h1, h2⟩ := hf
    cases ho
    simp only [initEntries, Out.idx, List.getElem?_cons_succ, List.getElem?_cons_zero, Out.bind_ok] at hi
    obtain ⟨-, -, hi⟩ := Out.bind_eq_ok.1 hi
    cases hi
    obtain ⟨g, g1, g2⟩ := hp _ (.head _)
    obtain ⟨b, b1, b2⟩ := hp _ (.tail _ (.head _))
    obtain ⟨mu, m1, m2, -⟩ := hb _ (.head _)
    obtain ⟨var, v1, v2, v3⟩ := hb _ (.tail _ (.head _))
    simp only [size_one] at g2 b2 m2 v2
    obtain ⟨g, rfl⟩ := ofFn_exists g2
    obtain ⟨b, rfl⟩ := ofFn_exists b2
    obtain ⟨mu, rfl⟩ := ofFn_exists m2
    obtain ⟨var, rfl⟩ := ofFn_exists v2
    obtain ⟨θ, t1, t2⟩ := join (sumE (P := n + n) rfl) g b
    have e1 : gammaOf θ = g := funext t1
    have e2 : betaOf θ = b := funext t2
    cases train with
    | true => exact ⟨_, _, _, _, .batchNorm2D eps alpha he hC h1 h2 θ mu var (by rw [e1]; exact g1) (by rw [e2]; exact b1) m1 v1⟩
    | false =>
      refine ⟨_, _, _, _, .batchNorm2DEval eps alpha he hC h1 h2 θ mu var (fun j => v3 rfl _ ?_) (by rw [e1]; exact g1) (by rw [e2]; exact b1) m1 v1⟩
      exact List.mem_ofFn.2 ⟨j, rfl⟩
  | linear u =>
    obtain ⟨hu, B, rest, rfl, hne, hs, hc⟩ := hf
    obtain ⟨u, rfl⟩ := Int.eq_ofNat_of_zero_le hu
    have ho' : o = [(B : Int), u] := by
      simp only [outShape] at ho
      obtain ⟨-, -, ho⟩ := Out.bind_eq_ok.1 ho
      cases ho
      rfl
    subst ho'
    simp only [initEntries] at hi
    rw [Tensor.accProd_eq hs hc, Out.bind_ok] at hi
    obtain ⟨-, -, hi⟩ := Out.bind_eq_ok.1 hi
    obtain ⟨-, -, hi⟩ := Out.bind_eq_ok.1 hi
    cases hi
    have hn : ((count rest).toNat : Int) = count rest := Int.toNat_of_nonneg (List.prod_nonneg hs)
    obtain ⟨n, hn⟩ : ∃ n : Nat, count rest = n := ⟨_, hn.symm⟩
    rw [hn] at hp
    obtain ⟨W, w1, w2⟩ := hp _ (.head _)
    obtain ⟨b, b1, b2⟩ := hp _ (.tail _ (.head _))
    have w2' : W.length = u * n := by rw [w2]; exact size_mat u n
    have b2' : b.length = u := by rw [b2]; exact size_one u
    obtain ⟨W, rfl⟩ := rowMajor_exists w2'
    obtain ⟨b, rfl⟩ := ofFn_exists b2'
    obtain ⟨θ, t1, t2⟩ := join (affineE u n) (Function.uncurry W) b
    have e1 : weightOf θ = W := funext fun i => funext fun j => t1 (i, j)
    have e2 : biasOf θ = b := funext t2
    exact ⟨_, _, _, _, .linear hne hs hc hn θ (by rw [e1]; exact w1) (by rw [e2]; exact b1)⟩
  | convolution c k p st =>
    obtain ⟨hc, h1, h2, N, C, H, W, oh, ow, rfl, rfl, hpos, hle⟩ := hf
    obtain ⟨kh, kw⟩ := k
    obtain ⟨ph, pw⟩ := p
    obtain ⟨sh, sw⟩ := st
    simp only at h1 h2 hpos hle
    obtain ⟨c, rfl⟩ := Int.eq_ofNat_of_zero_le hc
    obtain ⟨a, ha, a1, a2, a3, a4, a5, a6⟩ := axis h1 (window_outs ho).1
    obtain ⟨b, hb', b1, b2, b3, b4, b5, b6⟩ := axis h2 (window_outs ho).2
    subst a1 a2 a3 a4 a5 b1 b2 b3 b4 b5
    simp only [Int.toNat_natCast] at hpos hle
    simp only [initEntries, Out.idx, List.getElem?_cons_succ, List.getElem?_cons_zero, Out.bind_ok] at hi
    obtain ⟨-, -, hi⟩ := Out.bind_eq_ok.1 hi
    obtain ⟨-, -, hi⟩ := Out.bind_eq_ok.1 hi
    cases hi
    obtain ⟨W, w1, w2⟩ := hp _ (.head _)
    obtain ⟨d, d1, d2⟩ := hp _ (.tail _ (.head _))
    have w2' : W.length = c * (C * (a.kernel * b.kernel)) := by rw [w2]; exact size_img c C _ _
    have d2' : d.length = c := by rw [d2]; exact size_one c
    obtain ⟨W, rfl⟩ := flat4_exists w2'
    obtain ⟨d, rfl⟩ := ofFn_exists d2'
    obtain ⟨θ, t1, t2⟩ := join (kernelE c C a.kernel b.kernel) (fun q => W q.1 q.2.1 q.2.2.1 q.2.2.2) d
    have e1 : kernelOf θ = W := funext fun i => funext fun j => funext fun k => funext fun l => t1 (i, j, k, l)
    have e2 : shiftOf θ = d := funext t2
    exact ⟨_, _, _, _, .convolution ha hb' hle hpos θ (by rw [e1]; exact w1) (by rw [e2]; exact d1)⟩
  | maxPooling k p st =>
    obtain ⟨h1, h2, N, C, H, W, oh, ow, rfl, rfl, hc, hle⟩ := hf
    obtain ⟨kh, kw⟩ := k
    obtain ⟨ph, pw⟩ := p
    obtain ⟨sh, sw⟩ := st
    simp only at h1 h2 hle
    obtain ⟨a, ha, a1, a2, a3, a4, a5, a6⟩ := axis h1 (window_outs ho).1
    obtain ⟨b, hb', b1, b2, b3, b4, b5, b6⟩ := axis h2 (window_outs ho).2
    subst a1 a2 a3 a4 a5 b1 b2 b3 b4 b5
    simp only [Int.toNat_natCast] at hle
    exact ⟨_, _, _, _, .maxPooling ha hb' hc hle 0⟩

/-- All layers. -/
theorem computes_exists {op : Op} {n : Nat} {ishape : Fin n → Shape} {o : Shape} (hn : n = op.numIn)
    (ho : outShape op (List.ofFn ishape) = .ok o) {ps bs : List (String × Shape)}
    (hi : initEntries op (List.ofFn ishape) = .ok (ps, bs)) (hf : Fits real op (List.ofFn ishape) o)
    (ht : TensorsFit t op (List.ofFn ishape)) : ∃ P fn θ ex, Computes real t op ishape o P fn θ ex := by
  by_cases hop : op = .add
  · subst hop
    obtain rfl : n = 2 := hn
    simp only [List.ofFn_succ, List.ofFn_zero, outShape] at ho
    split at ho
    · next h =>
      cases ho
      exact ⟨_, _, _, _, .add rfl rfl h.symm 0⟩
    · cases ho
  · have h1 : op.numIn = 1 := by cases op <;> first | rfl | exact absurd rfl hop
    rw [h1] at hn
    subst hn
    simp only [List.ofFn_succ, List.ofFn_zero] at ho hi hf ht
    obtain ⟨P, fn, θ, ex, h⟩ := computes1_exists hop ho hi hf ht
    exact ⟨_, _, _, _, .one rfl rfl rfl h⟩

end

end DW.CompleteL
