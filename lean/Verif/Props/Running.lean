import Mathlib.Algebra.BigOperators.Intervals
import Verif.Props.Epochs
import Verif.Props.Batch
/-!
# The running statistics of batch normalisation are moving averages (C86)
-/

set_option autoImplicit false

namespace DW.Props.RunningP

open DW DW.Spec DW.HistL DW.BackendL DW.NetL DW.AgainL DW.RunL DW.TrainL DW.Optim DW.OptL DW.DL DW.Props.BackendP DW.Props.BatchP DW.Props.LoopP
  DW.Props.EpochP DW.Props.TrainP DW.Props.LossP DW.Props.GraphP DW.MatL

noncomputable section

variable {topo : Graph → List Node} {e : Expr} {ins outs : List Nat} {m : Model} {real : F32 → ℝ} {tensors : Nat → InfoTensors}
  {L : Layers e} {θ₀ θ : L.Params} {last : Option ((Nat → Env) × Vals e)} {w : World} {b : Backend} {env : Nat → Env} {it ot : List Nat}
  {v : Vals e}

/-! ## What a moving average is -/

/-- The weights: the newest value counts `1 - alpha`, the one before `alpha` times that, and so on; the start counts `alpha ^ k`. -/
theorem movingAverage_eq (alpha start : ℝ) (s : Nat → ℝ) (k : Nat) :
    movingAverage alpha start s k = alpha ^ k * start + (1 - alpha) * ∑ j ∈ Finset.range k, alpha ^ (k - 1 - j) * s j := by
  induction k with
  | zero => simp [movingAverage]
  | succ k ih =>
    simp only [movingAverage]
    rw [ih, Finset.sum_range_succ, show k + 1 - 1 - k = 0 by omega]
    have : ∑ j ∈ Finset.range k, alpha ^ (k + 1 - 1 - j) * s j = alpha * ∑ j ∈ Finset.range k, alpha ^ (k - 1 - j) * s j := by
      rw [Finset.mul_sum]
      refine Finset.sum_congr rfl fun j hj => ?_
      have := Finset.mem_range.1 hj
      rw [show k + 1 - 1 - j = (k - 1 - j) + 1 by omega, pow_succ]
      ring
    rw [this, pow_succ]
    ring

/-- It stays between bounds of the values. -/
theorem movingAverage_mem {alpha start lo hi : ℝ} (h0 : 0 ≤ alpha) (h1 : alpha ≤ 1) {s : Nat → ℝ} (hs : lo ≤ start ∧ start ≤ hi)
    {k : Nat} (h : ∀ j < k, lo ≤ s j ∧ s j ≤ hi) : lo ≤ movingAverage alpha start s k ∧ movingAverage alpha start s k ≤ hi := by
  induction k with
  | zero => exact hs
  | succ k ih =>
    obtain ⟨a1, a2⟩ := ih fun j hj => h j (by omega)
    obtain ⟨b1, b2⟩ := h k (by omega)
    simp only [movingAverage]
    constructor <;> nlinarith

/-! ## The states of a program have running statistics -/

/-- Every batch normalisation layer has running statistics after any history. -/
theorem statistics_exist (B : Built topo e ins outs m real tensors L θ₀) (h : History e ins outs m real tensors L θ₀ θ last w) {x n : Nat}
    (hx : x ∈ dataOf m) {alpha : F32} {mu var : Vals e → Fin n → ℝ} (hs : BatchStats e x alpha n mu var) :
    ∃ mu₀ var₀ : Fin n → ℝ, RunningStats e m w x mu₀ var₀ := by
  obtain ⟨R, K, hk, hst⟩ := kit_exists B
  obtain ⟨b, i1, i2, -⟩ := live B hk hst h
  cases hs with
  | norm1d hcx hop hargs hsh =>
    obtain ⟨l, s1, s2⟩ := i2 x hx (by rw [hcx]; rfl)
    have hf := (hst.layer x hx _ hcx).form _ _ s2 _ (by rw [args_shapes, hargs]; rfl)
    rw [hop, hsh] at hf
    obtain ⟨training, B', n', gamma, beta, rm, rv, gg, gb, std, centered, nin, nout, rfl, h1, -⟩ := hf
    obtain ⟨rfl, rfl⟩ : _ = B' ∧ n = n' := by simpa using h1
    exact ⟨rm, rv, b, _, i1.backend, s1, rfl⟩
  | norm2d hcx hop hargs hsh =>
    obtain ⟨l, s1, s2⟩ := i2 x hx (by rw [hcx]; rfl)
    have hf := (hst.layer x hx _ hcx).form _ _ s2 _ (by rw [args_shapes, hargs]; rfl)
    rw [hop, hsh] at hf
    obtain ⟨training, N', C', H', W', k, gamma, beta, rm, rv, gg, gb, std, centered, nin, nout, rfl, h1, -⟩ := hf
    obtain ⟨rfl, rfl, rfl, rfl⟩ : _ = N' ∧ n = C' ∧ _ = H' ∧ _ = W' := by simpa using h1
    exact ⟨rm, rv, b, _, i1.backend, s1, rfl⟩

theorem create_buffers {eps alpha : ℝ} {t : InfoTensors} {n : Nat} {mu var : Fin n → ℝ} (hm : HasBuffer t "running_mean" [n] (List.ofFn mu))
    (hv : HasBuffer t "running_var" [n] (List.ofFn var)) {st : BnSt} (h : Cpu.createBn eps alpha t = .ok st) :
    st.runMean.vals ++ st.runVar.vals = List.ofFn mu ++ List.ofFn var := by
  unfold HasBuffer at hm hv
  simp only [Cpu.createBn, hm, hv, Out.bind_eq_ok] at h
  obtain ⟨_, -, _, -, _, -, _, -, _, h1, _, h2, h⟩ := h
  cases h1
  cases h2
  cases h
  rfl

/-- After `compile` they are what the buffers of the model were. -/
theorem compile_statistics (B : Built topo e ins outs m real tensors L θ₀) (junk : Nat → ℝ) (w : World) {x c n : Nat} (hx : x ∈ dataOf m)
    (hcx : e.callOf x = some c) {alpha : F32} {mu var : Vals e → Fin n → ℝ} (hs : BatchStats e x alpha n mu var) {mu₀ var₀ : Fin n → ℝ}
    (hm : HasBuffer (tensors (e.callInfo c)) "running_mean" [n] (List.ofFn mu₀))
    (hv : HasBuffer (tensors (e.callInfo c)) "running_var" [n] (List.ofFn var₀)) :
    RunningStats e m (m.compile e real junk tensors w).2 x mu₀ var₀ := by
  obtain ⟨R, K, hk, hst⟩ := kit_exists B
  have P := plan B
  obtain ⟨w', b, h1, h2, h3, -⟩ := compile_run P (fun y hy hst => B.shapes y hy fun ho => hst ((storage_output P).2 ho))
    (R := fun x l => ∀ c, e.callOf x = some c → Cpu.create real (infoOf e (e.callInfo c)).op (tensors (e.callInfo c)) = .ok l)
    (fun x hx c hc => by
      obtain ⟨l, hl, -⟩ := (hst.layer x hx c hc).create
      refine ⟨l, hl, fun c' hc' => ?_⟩
      obtain rfl := Option.some.inj (hc.symm.trans hc')
      exact hl) junk w
  obtain ⟨l, s1, s2⟩ := h3 x hx (by rw [hcx]; rfl)
  have s2 := s2 c hcx
  rw [h1]
  refine ⟨b, l, h2.backend, s1, ?_⟩
  cases hs with
  | norm1d hcx' hop hargs hsh =>
    obtain rfl := Option.some.inj (hcx.symm.trans hcx')
    rw [hop] at s2
    simp only [Cpu.create, Out.bind_eq_ok] at s2
    obtain ⟨st, q1, q2⟩ := s2
    cases q2
    exact create_buffers hm hv q1
  | norm2d hcx' hop hargs hsh =>
    obtain rfl := Option.some.inj (hcx.symm.trans hcx')
    rw [hop] at s2
    simp only [Cpu.create, Out.bind_eq_ok] at s2
    obtain ⟨st, q1, q2⟩ := s2
    cases q2
    exact create_buffers hm hv q1

/-! ## What changes them -/

/-- **C86.** `forward` in training mode, after any history: every batch normalisation layer of the model, wherever it is, moves its
running statistics to `alpha` times the old ones and `1 - alpha` times the mean and the variance of the batch it was given. -/
theorem forward_statistics (B : Built topo e ins outs m real tensors L θ₀)
    (htr : ∀ x ∈ dataOf m, ∀ c, e.callOf x = some c → Trainable (tensors (e.callInfo c)))
    (h : History e ins outs m real tensors L θ₀ θ last w) (ha : FwdArgs e m ins outs w b it ot) (hp : ∀ c, IsPick (env c).pick)
    (hv : (L.net m env).Evaluates θ v) (hc : Carry e w ins it v) {x n : Nat} (hx : x ∈ dataOf m) {alpha : F32}
    {mu var : Vals e → Fin n → ℝ} (hs : BatchStats e x alpha n mu var) {mu₀ var₀ : Fin n → ℝ} (hr : RunningStats e m w x mu₀ var₀) :
    ∃ w', m.forward env it ot w = (.ok (), w') ∧
      RunningStats e m w' x (fun j => mu₀ j * real alpha + mu v j * (1 - real alpha)) fun j => var₀ j * real alpha + var v j * (1 - real alpha) := by
  obtain ⟨w', -, h1, -⟩ := forward_evaluates_partial B h ha hp hv hc
  have := forward_averages B htr h ha hp hv hc (fun _ => v) rfl x hx alpha n mu var hs mu₀ var₀ hr
  rw [h1] at this
  exact ⟨w', h1, this⟩

/-- **C86.** In evaluation mode nothing changes them: whatever is done with the model, as long as its mode stays and no buffers are
loaded, they are the same afterwards. -/
theorem evaluation_statistics (B : Built topo e ins outs m real tensors L θ₀)
    (hfr : ∀ x ∈ dataOf m, ∀ c, e.callOf x = some c → Frozen (tensors (e.callInfo c))) {θ' : L.Params}
    {last' : Option ((Nat → Env) × Vals e)} {w' : World} (h : History e ins outs m real tensors L θ₀ θ last w)
    (h' : History e ins outs m real tensors L θ₀ θ' last' w') {x n : Nat} (hx : x ∈ dataOf m) {alpha : F32}
    {mu var : Vals e → Fin n → ℝ} (hs : BatchStats e x alpha n mu var) {mu₀ var₀ : Fin n → ℝ} (hr : RunningStats e m w x mu₀ var₀) :
    RunningStats e m w' x mu₀ var₀ :=
  frozen_stats B hfr h h' (fun _ => fun _ _ => 0) x hx alpha n mu var hs mu₀ var₀ hr

/-- **C86.** `backward`, the step of any optimizer and `train` never change them, whatever the state and however they end. -/
theorem others_keep_statistics (e : Expr) (m : Model) (w : World) {x n : Nat} {mu₀ var₀ : Fin n → ℝ} (hr : RunningStats e m w x mu₀ var₀) :
    (∀ env it ot gt, RunningStats e m (m.backward env it ot gt w).2 x mu₀ var₀) ∧
    (∀ (σ : Type) (step : ParamMap → M (Opt σ) Unit) (mode : Bool) (aux : σ),
      RunningStats e m (optimizerStep step e m mode (w, aux)).2.1 x mu₀ var₀) ∧
    ∀ mode, RunningStats e m (trained mode w) x mu₀ var₀ :=
  ⟨fun env it ot gt => running_of_stats (keeps_backward m env it ot gt w) hr,
    fun _ step mode aux => running_of_stats (keeps_optimizerStep step e m mode (w, aux)) hr,
    fun mode => running_of_stats (stats_trained mode w) hr⟩

section

variable {xi yo N n : Nat} {σ : Type} {Lb : Nat → Fin N → Fin n} {Θ : Nat → L.Params} {vs : Nat → Vals e} {S : Setup σ}

/-- **C86.** After the main loop of a sample the running statistics are the moving averages over the batches of all epochs, in the
order of training, of the means and variances of what each layer was given then; the validation does not count. The predictions in the
validation of an epoch are those with the statistics after its last round of training. -/
theorem epochs_statistics {hs : phShape e yo = [(N : Int), n]} {fuel epochNo : Nat} {aux : σ}
    (h : Reports topo e xi yo m real hs S vs Lb Θ fuel epochNo w b aux) {x k : Nat} (hx : x ∈ dataOf m) {alpha : F32}
    {mu var : Vals e → Fin k → ℝ} (hb : BatchStats e x alpha k mu var) {mu₀ var₀ : Fin k → ℝ} (hr : RunningStats e m w x mu₀ var₀) :
    ∃ results s', epochs e m S fuel epochNo ⟨w, aux, 0, 0⟩ = (.ok (some results), s') ∧
      RunningStats e m s'.world x (fun j => movingAverage (real alpha) (mu₀ j) (fun r => mu (vs r) j) (epochNo * batches S.train))
        (fun j => movingAverage (real alpha) (var₀ j) (fun r => var (vs r) j) (epochNo * batches S.train)) ∧
      ∀ i < epochNo, ∃ (r : List (ℝ × ℝ)) (l : ℝ) (s s₁ : Session σ), epochs e m S fuel i ⟨w, aux, 0, 0⟩ = (.ok (some r), s) ∧
        epochTraining e m S i fuel s = (.ok (some l), s₁) ∧
        RunningStats e m s₁.world x (fun j => movingAverage (real alpha) (mu₀ j) (fun r => mu (vs r) j) ((i + 1) * batches S.train))
          fun j => movingAverage (real alpha) (var₀ j) (fun r => var (vs r) j) ((i + 1) * batches S.train) := by
  obtain ⟨f, w', b', aux', h1, -, -, -, -, h2, -, h3⟩ := h
  refine ⟨_, _, h1, h2 x hx alpha k mu var hb _ _ hr, fun i hi => ?_⟩
  obtain ⟨r, l, s, s₁, q1, q2, -, q3⟩ := h3 i hi
  exact ⟨r, l, s, s₁, q1, q2, q3 x hx alpha k mu var hb _ _ hr⟩

end

/-! ## A concrete case -/

/-- Half and half. -/
def halves (a : F32) : ℝ := if a = 0 then 1 / 2 else 1

/-- Batch normalisation of two numbers, with `alpha` one half: after `compile` the running mean is 0 and the running variance 1. With
the batch 3, 7 in training mode they become `0 / 2 + 5 / 2` and `1 / 2 + 4 / 2`. -/
example : ∃ (m : Model) (L : Layers normE) (θ₀ : L.Params) (w w' : World) (it ot : List Nat) (env : Nat → Env),
    Built (creationOrder normE) normE [0] [1] m halves (fun _ => normTensors true) L θ₀ ∧
    History normE [0] [1] m halves (fun _ => normTensors true) L θ₀ θ₀ none w ∧ Carry normE w [0] it (pair 3 7) ∧
    RunningStats normE m w 1 (fun _ : Fin 1 => 0) (fun _ => 1) ∧ m.forward env it ot w = (.ok (), w') ∧
    RunningStats normE m w' 1 (fun _ : Fin 1 => 5 / 2) fun _ => 5 / 2 := by
  obtain ⟨m, L, θ₀, B, hd⟩ := norm_built_with (real := halves) (by unfold halves; rw [if_neg (by decide)]; exact one_pos) true
  obtain ⟨pick, hpick⟩ := Props.MaxPoolP.exists_pick
  obtain ⟨w, b, it, ot, h, ha, hc, w₀, hw⟩ := compile_session B (pair 3 7)
  obtain ⟨v, hv, hcv⟩ := values_of_inputs B ha (fun _ => ⟨fun _ => 0, fun _ => 0, pick⟩) θ₀
  have hx : 1 ∈ dataOf m := by rw [hd]; simp
  have hcall : normE.callOf 1 = some 0 := by rw [normE_eq]; decide
  have hargs : normE.argsOf 1 = [0] := by rw [normE_eq]; decide
  have hop : (infoOf normE (normE.callInfo 0)).op = .batchNorm1D 1 0 := by rw [normE_eq]; decide
  have hsh : phShape normE 0 = [((2 : Nat) : Int), ((1 : Nat) : Int)] := norm_shape 0 (by simp)
  have hbs : BatchStats normE 1 0 1 _ _ := .norm1d hcall hop hargs hsh
  have hr : RunningStats normE m w 1 (fun _ : Fin 1 => 0) fun _ => 1 := by
    rw [hw]
    exact compile_statistics B _ w₀ hx hcall hbs (by rw [List.ofFn_const]; rfl) (by rw [List.ofFn_const]; rfl)
  obtain ⟨w', f1, f2⟩ := forward_statistics B (fun x _ c _ name p hp => by
    have := lookup_mem hp
    simp only [normTensors, List.mem_cons, Prod.mk.injEq, List.not_mem_nil, or_false] at this
    rcases this with ⟨-, rfl⟩ | ⟨-, rfl⟩ <;> rfl) h ha (fun _ => hpick) hv hcv hx hbs hr
  refine ⟨m, L, θ₀, w, w', it, ot, _, B, h, hc, hr, f1, ?_⟩
  have l : 0 < it.length := by rw [ha.givenIns.length]; decide
  have hv0 := holds_unique (hcv 0 0 _ rfl (List.getElem?_eq_getElem l)) (hc 0 0 _ rfl (List.getElem?_eq_getElem l))
  have he : ∀ i : Fin 2, entry2 hsh (v 0) i 0 = if i = 0 then 3 else 7 := by
    rw [hv0]
    intro i
    show (if _ then (3 : ℝ) else 7) = _
    refine if_congr ?_ rfl rfl
    fin_cases i
    · exact ⟨fun _ => rfl, fun _ => rfl⟩
    · exact ⟨fun h => absurd (show (1 : Nat) = 0 from h) (by decide), fun h => absurd h (by decide)⟩
  have hal : halves 0 = 1 / 2 := if_pos rfl
  have e1 : ∀ j : Fin 1, (mean fun i => entry2 hsh (v 0) i j) = 5 := fun j => by
    obtain rfl : j = 0 := Subsingleton.elim _ _
    simp only [he, mean, Fin.sum_univ_two, Fintype.card_fin]
    norm_num
  have e2 : ∀ j : Fin 1, (variance fun i => entry2 hsh (v 0) i j) = 4 := fun j => by
    unfold variance
    rw [e1 j]
    obtain rfl : j = 0 := Subsingleton.elim _ _
    simp only [he, mean, Fin.sum_univ_two, Fintype.card_fin]
    norm_num
  simp only [e1, e2, hal] at f2
  norm_num at f2
  exact f2

/-! ## A classifier with batch normalisation -/

/-- `y = Softmax(BatchNorm1D(x))` for batches of two samples of two numbers. -/
def normSoft : M Expr Nat := do
  let x ← Expr.placeholder [2, 2]
  let a ← Expr.makeLayer "BatchNorm1D" "" [("eps", .float 1), ("alpha", .float 0)] [x]
  Expr.makeLayer "Softmax" "" [] [a]

def softE : Expr := (normSoft {}).2

theorem soft_reachable : Reachable softE :=
  reachable_bind (.placeholder _ .empty) fun _ _ _ h => reachable_bind (.makeLayer _ _ _ _ h) fun _ _ _ h => .makeLayer _ _ _ _ h

theorem softE_eq : softE =
    { phs := [⟨[2, 2], none⟩, ⟨[2, 2], some 0⟩, ⟨[2, 2], some 1⟩]
      calls := [⟨0, [0]⟩, ⟨1, [1]⟩]
      infos := [⟨"", .batchNorm1D 1 0, [("gamma", ⟨[2], true⟩), ("beta", ⟨[2], true⟩)],
        [("running_mean", [2]), ("running_var", [2])]⟩, ⟨"", .softmax, [], []⟩] } := by
  decide +kernel

/-- Its tensors, as they are initialized. -/
def softTensors : InfoTensors where
  params := [("gamma", ⟨⟨[2], [1, 1]⟩, ⟨[2], [0, 0]⟩, true⟩), ("beta", ⟨⟨[2], [0, 0]⟩, ⟨[2], [0, 0]⟩, true⟩)]
  buffers := [("running_mean", ⟨[2], [0, 0]⟩), ("running_var", ⟨[2], [1, 1]⟩)]

theorem soft_built {real : F32 → ℝ} (hreal : 0 < real 1) : ∃ (m : Model) (L : Layers softE) (θ₀ : L.Params),
    Built (creationOrder softE) softE [0] [2] m real (fun _ => softTensors) L θ₀ ∧ dataOf m = [0, 1, 2] := by
  have ht : SortsCorrectly (creationOrder softE) softE [0] [2] := topological_order_exists soft_reachable (by decide +kernel)
  obtain ⟨m, hm, hd⟩ := look (f := fun m => sortedData m.sorted)
    (show observe (modelCtor (creationOrder softE) [0] [2] softE) _ = some [0, 1, 2] by decide +kernel)
  have hd' : dataOf m = [0, 1, 2] := hd
  have ho : Orderly softE [2] := orderly_of_desc soft_reachable (by decide) fun x => by
    rw [softE_eq]
    match x with
    | 0 | 1 | 2 => decide +kernel
    | x + 3 => exact List.Pairwise.nil
  have hsound : Sound softE m [0] [2] :=
    ⟨by rw [softE_eq]; decide, by rw [softE_eq, hd']; decide, by rw [softE_eq]; decide, by decide, by decide⟩
  have hcf : ∀ s : Shape, s = [2, 2] ∨ s = [2] → Static s ∧ CountFits s := by
    rintro s (rfl | rfl)
    · refine ⟨by decide, fun k => ?_⟩
      rcases k with _ | _ | _ | k <;> simp
    · refine ⟨by decide, fun k => ?_⟩
      rcases k with _ | _ | k <;> simp
  have hsh : ∀ y ∈ dataOf m, phShape softE y = [2, 2] := by rw [hd', softE_eq]; decide
  have hfit : AllFit softE m real (fun _ => softTensors) := by
    refine ⟨fun x hx c hc => ?_, fun x hx c hc => ?_⟩ <;> rw [hd'] at hx <;> simp only [List.mem_cons, List.not_mem_nil, or_false] at hx <;>
      rw [softE_eq] at hc ⊢ <;> rcases hx with rfl | rfl | rfl <;> first | (obtain rfl := Option.some.inj hc) | exact absurd hc (by simp [Expr.callOf])
    · exact ⟨hreal, 2, 2, rfl, (hcf [2] (by simp)).2, (hcf [2, 2] (by simp)).2⟩
    · exact ⟨2, 2, rfl, by decide⟩
    · refine ⟨true, fun ps bs hb => ?_⟩
      obtain ⟨rfl, rfl⟩ : [("gamma", [2]), ("beta", [2])] = ps ∧ [("running_mean", [2]), ("running_var", [2])] = bs := by
        exact Prod.mk.inj (Out.ok.inj hb)
      simp only [List.forall_mem_cons, List.not_mem_nil, false_imp_iff, implies_true, and_true]
      refine ⟨⟨⟨[1, 1], ⟨_, rfl, rfl⟩, rfl⟩, ⟨[0, 0], ⟨_, rfl, rfl⟩, rfl⟩⟩, ⟨[0, 0], rfl, rfl, ?_⟩, ⟨[1, 1], rfl, rfl, ?_⟩⟩ <;> simp
    · exact tensorsFit_nil rfl
  obtain ⟨L, θ₀, B⟩ := built_exists soft_reachable ht hm ho hsound (fun y hy _ => by rw [hsh y hy]; exact hcf _ (by simp)) hfit
  exact ⟨m, L, θ₀, B, hd'⟩

theorem computes_norm {real : F32 → ℝ} {t : InfoTensors} (ht : Trainable t) {op : Op} {n : Nat} {ishape : Fin n → Shape} {o : Shape}
    {P : Nat} {fn : (Nat → ℝ) → (Fin P → ℝ) → Args ishape → Elems o} {θ : Fin P → ℝ} {ex : Prop}
    (h : Computes real t op ishape o P fn θ ex) {eps alpha : F32} (hop : op = .batchNorm1D eps alpha) : ex := by
  cases h with
  | one hn hs ho h =>
    cases h with
    | batchNorm1D => trivial
    | batchNorm1DEval _ _ _ _ _ _ _ _ _ hg =>
      obtain ⟨p, hp, hg⟩ := hg
      exact absurd (ht _ _ hp) (by simp_all)
    | _ => exact Op.noConfusion hop
  | add hn h₀ h₁ => cases hop

theorem soft_trainable : Trainable softTensors := fun name p hp => by
  simp only [softTensors, List.lookup_cons, List.lookup_nil] at hp
  split at hp
  · cases hp; rfl
  · split at hp
    · cases hp; rfl
    · cases hp

/-- The classifier with batch normalisation, trained by SGD with momentum on any data set of two or more samples with two attributes and
labels 0 and 1, and validated with any other: after any number of epochs its running statistics are the moving averages. -/
example (train val : Dataset ℝ) (ht : train.shapeX = [2] ∧ train.shapeY = [1] ∧ 2 ≤ train.size ∧ train.size ≤ 60000)
    (hv : val.shapeX = [2] ∧ val.shapeY = [1] ∧ 2 ≤ val.size ∧ val.size ≤ 60000) (hlab : ∀ k, train.y k 0 = 0 ∨ train.y k 0 = 1)
    (rands : Nat → Nat → List Int) (hr : ∀ i k, (rands i k).length = 2 ∧ ∀ v ∈ rands i k, 0 ≤ v ∧ v < train.size)
    (epochNo : Nat) (lr gamma : ℝ) :
    ∃ (m : Model) (L : Layers softE) (θ₀ : L.Params) (w : World) (b : Backend) (x p y g : Nat) (env : Nat → Nat → Nat → Env)
      (s' : Session Momentum) (results : List (ℝ × ℝ)) (mu₀ var₀ : Fin 2 → ℝ) (mu var : Nat → Fin 2 → ℝ),
    Built (creationOrder softE) softE [0] [2] m halves (fun _ => softTensors) L θ₀ ∧
    History softE [0] [2] m halves (fun _ => softTensors) L θ₀ θ₀ none w ∧ EpochL.EpochArgs softE m 0 2 2 w b x p y g ∧
    RunningStats softE m w 1 mu₀ var₀ ∧
    epochs softE m ⟨momentumStep, ⟨train, 2, true⟩, ⟨val, 2, false⟩, x, p, y, g, fun _ => 0, rands, fun _ _ => [], env, env, env⟩ 60000 epochNo
      ⟨w, Momentum.create ((objects true b.layers).map Prod.snd) (paramMap softE m true b.layers) lr gamma, 0, 0⟩ =
      (.ok (some results), s') ∧
    RunningStats softE m s'.world 1 (fun j => movingAverage (1 / 2) (mu₀ j) (fun k => mu k j) (epochNo * (train.size / 2)))
      fun j => movingAverage (1 / 2) (var₀ j) (fun k => var k j) (epochNo * (train.size / 2)) := by
  have h1 : halves 1 = 1 := by unfold halves; rw [if_neg (by decide)]
  have h0 : halves 0 = 1 / 2 := by unfold halves; rw [if_pos rfl]
  obtain ⟨m, L, θ₀, B, hd⟩ := soft_built (real := halves) (by rw [h1]; exact one_pos)
  have hcall : ∀ x ∈ dataOf m, ∀ c, softE.callOf x = some c → x = 1 ∧ c = 0 ∨ x = 2 ∧ c = 1 := fun x hx c hc => by
    rw [hd] at hx
    simp only [List.mem_cons, List.not_mem_nil, or_false] at hx
    rw [softE_eq] at hc
    rcases hx with rfl | rfl | rfl
    · exact absurd hc (by simp [Expr.callOf])
    · exact .inl ⟨rfl, (Option.some.inj hc).symm⟩
    · exact .inr ⟨rfl, (Option.some.inj hc).symm⟩
  have hop0 : (infoOf softE (softE.callInfo 0)).op = .batchNorm1D 1 0 := by rw [softE_eq]; rfl
  have hop1 : (infoOf softE (softE.callInfo 1)).op = .softmax := by rw [softE_eq]; rfl
  have e1 := computes_norm soft_trainable (B.layers 1 (by rw [hd]; decide) 0 (by rw [softE_eq]; rfl)) hop0
  have e2 := computes_softmax (B.layers 2 (by rw [hd]; decide) 1 (by rw [softE_eq]; rfl)) hop1
  have hs : phShape softE 2 = [((2 : Nat) : Int), ((2 : Nat) : Int)] := by rw [softE_eq]; rfl
  have hin : phShape softE 0 = [((2 : Nat) : Int), ((2 : Nat) : Int)] := by rw [softE_eq]; rfl
  have ho : SoleConsumer softE m [2] := fun x y h => by
    obtain ⟨hx, -, ⟨c, hc, ho⟩, -⟩ := h
    rcases hcall x hx c hc with ⟨rfl, rfl⟩ | ⟨rfl, rfl⟩
    · rw [hop0] at ho; cases ho
    · rw [hop1] at ho; cases ho
  have hx : ∀ x ∈ dataOf m, (softE.callOf x).isSome → L.exact x := fun x hx hc => by
    obtain ⟨c, hc⟩ := Option.isSome_iff_exists.1 hc
    rcases hcall x hx c hc with ⟨rfl, rfl⟩ | ⟨rfl, rfl⟩
    · exact e1
    · exact e2.1
  obtain ⟨pick, hpick⟩ := Props.MaxPoolP.exists_pick
  let env : Nat → Nat → Nat → Env := fun _ _ _ => ⟨fun _ => 0, fun _ => 0, pick⟩
  obtain ⟨w, b, x, p, y, g, hist, ha⟩ := epoch_session B 2
  let S : Setup Momentum :=
    ⟨momentumStep, ⟨train, 2, true⟩, ⟨val, 2, false⟩, x, p, y, g, fun _ => 0, rands, fun _ _ => [], env, env, env⟩
  have fit : LoadersFit softE 0 2 2 2 S := ⟨by norm_num, by norm_num, hs, by norm_num, rfl, rfl, by rw [hin]; simp [S, ht.1],
    by rw [hin]; simp [S, hv.1], ht.2.1, hv.2.1, by have := ht.2.2.2; simp only [S]; omega, by have := hv.2.2.2; simp only [S]; omega, ht.2.2.1, hv.2.2.1, rfl⟩
  have pos : Possible 2 S := ⟨fun _ => hr, fun _ _ _ => hpick, fun _ _ _ => hpick⟩
  obtain ⟨Θ, v, Lb, gr, hC, hΘ⟩ := epochCourse_exists B ho fit pos hx (fun k _ _ => by
      rcases hlab k with h | h
      · exact ⟨0, by simpa [S] using h⟩
      · exact ⟨1, by simpa [S] using h⟩) (fun env θ v Lb hv => ⟨fun x hx c hc => by
        rcases hcall x hx c hc with ⟨rfl, rfl⟩ | ⟨rfl, rfl⟩
        · rw [hop0]; trivial
        · rw [hop1]; trivial, fun i => by
        have := hv 2 (mem_net.2 ⟨by rw [hd]; decide, by rw [softE_eq]; rfl⟩)
        unfold predOf arr
        rw [this]
        exact e2.2 _ _ _ _⟩) θ₀ (fun _ => (lr, gamma)) momentumEl.ew momentumEl.en 0 epochNo
  have hrep := momentum_epochs (fuel := 60000) rfl B (fun x hx c hc => soft_trainable) ho (fun x hx c hc q hq => by
      rcases hcall x hx c hc with ⟨-, rfl⟩ | ⟨-, rfl⟩
      · rw [hop0] at hq; cases hq
      · rw [hop1] at hq; cases hq) (fun x hx c hc => by
      rcases hcall x hx c hc with ⟨-, rfl⟩ | ⟨-, rfl⟩
      · rw [hop0]; exact ⟨by rw [h0]; norm_num, by rw [h0]; norm_num, fun q hq => by cases hq; simp⟩
      · rw [hop1]; trivial) fit pos hx hC lr gamma
    (fun k _ x i => (hΘ k x i).trans (congrArg Prod.fst (OptP.traj_momentum gamma (fun _ => lr) _ _ _ k)))
    (by show train.size / 2 < 60000; have := ht.2.2.2; omega) (by show val.size / 2 < 60000; have := hv.2.2.2; omega) hist ha
  have hm1 : 1 ∈ dataOf m := by rw [hd]; simp
  have hbs : BatchStats softE 1 0 2 _ _ := .norm1d (by rw [softE_eq]; rfl) hop0 (by rw [softE_eq]; rfl) hin
  obtain ⟨mu₀, var₀, hr₀⟩ := statistics_exist B hist hm1 hbs
  obtain ⟨results, s', q1, q2, -⟩ := epochs_statistics hrep hm1 hbs hr₀
  rw [h0] at q2
  exact ⟨m, L, θ₀, w, b, x, p, y, g, env, s', results, mu₀, var₀, _, _, B, hist, ha, hr₀, q1, q2⟩

end

end DW.Props.RunningP
