import Verif.Spec.Running
import Verif.Lemmas.History
import Verif.Lemmas.Again
import Verif.Model.Training
import Verif.Model.Epochs
/-! # What changes the running statistics -/

set_option autoImplicit false

namespace DW.RunL

open DW DW.Spec DW.HistL DW.BackendL DW.NetL DW.MatL DW.FlatL DW.AgainL DW.Props.ContractP DW.Props.GraphP

noncomputable section

/-! ### Layer objects -/

/-- `BatchNorm1D` in training mode. -/
theorem forward_norm1d {real : F32 → ℝ} {t : InfoTensors} {B n : Nat} {eps alpha : F32} {o : Shape} {l l' : Cpu}
    (hl : Form real t [(B : Int), n] o (.batchNorm1D eps alpha) l) (ht : Trainable t) {ev : Env} {u : Elems [(B : Int), n]} {old y : List ℝ}
    (ho : old.length = size o) (hf : l.forward ev [⟨[(B : Int), n], List.ofFn u⟩] [⟨o, old⟩] = .ok (l', y)) {mu var : Fin n → ℝ}
    (hb : l.buffers = List.ofFn mu ++ List.ofFn var) :
    l'.buffers = (List.ofFn fun j => mu j * real alpha + (mean fun i => entry2 rfl u i j) * (1 - real alpha)) ++
      List.ofFn fun j => var j * real alpha + (variance fun i => entry2 rfl u i j) * (1 - real alpha) := by
  obtain ⟨training, B', n', gamma, beta, rm, rv, gg, gb, std, centered, nin, nout, rfl, h1, rfl, h3, h4, h5, p, h6, rfl⟩ := hl
  obtain ⟨rfl, rfl⟩ : B = B' ∧ n = n' := by simpa using h1
  rw [ht _ _ h6] at hf
  have hr := Props.BatchNormP.batchNorm1d_train (real eps) (real alpha) gamma beta rm rv gg gb std centered nin nout ev.junk h4 h3 h5
    (Function.curry (arr (matE (size_mat B n)) u)) old (by rw [ho, size_mat])
  simp only [Cpu.forward] at hf
  rw [ofFn_arr (size_mat B n) u, hr, Out.bind_ok] at hf
  obtain ⟨rfl, -⟩ := Prod.mk.inj (Out.ok.inj hf)
  simp only [Cpu.buffers, Props.BatchNormP.layer] at hb ⊢
  obtain ⟨e1, e2⟩ := List.append_inj hb (by simp)
  rw [List.ofFn_inj.1 e1, List.ofFn_inj.1 e2]
  rfl

/-- `BatchNorm2D` in training mode. -/
theorem forward_norm2d {real : F32 → ℝ} {t : InfoTensors} {N C H W : Nat} {eps alpha : F32} {o : Shape} {l l' : Cpu}
    (hl : Form real t [(N : Int), C, H, W] o (.batchNorm2D eps alpha) l) (ht : Trainable t) {ev : Env} {u : Elems [(N : Int), C, H, W]}
    {old y : List ℝ} (ho : old.length = size o) (hf : l.forward ev [⟨[(N : Int), C, H, W], List.ofFn u⟩] [⟨o, old⟩] = .ok (l', y))
    {mu var : Fin C → ℝ} (hb : l.buffers = List.ofFn mu ++ List.ofFn var) :
    l'.buffers = (List.ofFn fun c => mu c * real alpha +
        (mean fun p : Fin N × Fin H × Fin W => entry4 rfl u p.1 c p.2.1 p.2.2) * (1 - real alpha)) ++
      List.ofFn fun c => var c * real alpha +
        (variance fun p : Fin N × Fin H × Fin W => entry4 rfl u p.1 c p.2.1 p.2.2) * (1 - real alpha) := by
  obtain ⟨training, N', C', H', W', k, gamma, beta, rm, rv, gg, gb, std, centered, nin, nout, rfl, h1, rfl, h3, h4, h5, h5', p, h6, rfl⟩ := hl
  obtain ⟨rfl, rfl, rfl, rfl⟩ : N = N' ∧ C = C' ∧ H = H' ∧ W = W' := by simpa using h1
  rw [ht _ _ h6] at hf
  obtain ⟨sh, rest, nin', nout', -, hr⟩ := Props.BatchNormP.batchNorm2d_train (real eps) (real alpha) gamma beta rm rv gg gb std centered
    nin nout ev.junk h4 (h5.imp_right fun h => h.ge) h3 h5' (arr4 (arr (Spec.imgE (size_img N C H W)) u)) old (by rw [ho, size_img])
  simp only [Cpu.forward] at hf
  rw [ofFn_img_arr (size_img N C H W) u, hr, Out.bind_ok] at hf
  obtain ⟨rfl, -⟩ := Prod.mk.inj (Out.ok.inj hf)
  simp only [Cpu.buffers, Props.BatchNormP.layer] at hb ⊢
  obtain ⟨e1, e2⟩ := List.append_inj hb (by simp)
  rw [List.ofFn_inj.1 e1, List.ofFn_inj.1 e2]
  rfl

theorem forward_stats1d {real : F32 → ℝ} {t : InfoTensors} {s : Shape} {B n : Nat} (hs : s = [(B : Int), n]) {eps alpha : F32} {o : Shape}
    {l l' : Cpu} (hl : Form real t s o (.batchNorm1D eps alpha) l) (ht : Trainable t) {ev : Env} {u : Elems s} {old y : List ℝ}
    (ho : old.length = size o) (hf : l.forward ev [⟨s, List.ofFn u⟩] [⟨o, old⟩] = .ok (l', y)) {mu var : Fin n → ℝ}
    (hb : l.buffers = List.ofFn mu ++ List.ofFn var) :
    l'.buffers = (List.ofFn fun j => mu j * real alpha + (mean fun i => entry2 hs u i j) * (1 - real alpha)) ++
      List.ofFn fun j => var j * real alpha + (variance fun i => entry2 hs u i j) * (1 - real alpha) := by
  subst hs
  exact forward_norm1d hl ht ho hf hb

theorem forward_stats2d {real : F32 → ℝ} {t : InfoTensors} {s : Shape} {N C H W : Nat} (hs : s = [(N : Int), C, H, W]) {eps alpha : F32}
    {o : Shape} {l l' : Cpu} (hl : Form real t s o (.batchNorm2D eps alpha) l) (ht : Trainable t) {ev : Env} {u : Elems s}
    {old y : List ℝ} (ho : old.length = size o) (hf : l.forward ev [⟨s, List.ofFn u⟩] [⟨o, old⟩] = .ok (l', y))
    {mu var : Fin C → ℝ} (hb : l.buffers = List.ofFn mu ++ List.ofFn var) :
    l'.buffers = (List.ofFn fun c => mu c * real alpha +
        (mean fun p : Fin N × Fin H × Fin W => entry4 hs u p.1 c p.2.1 p.2.2) * (1 - real alpha)) ++
      List.ofFn fun c => var c * real alpha +
        (variance fun p : Fin N × Fin H × Fin W => entry4 hs u p.1 c p.2.1 p.2.2) * (1 - real alpha) := by
  subst hs
  exact forward_norm2d hl ht ho hf hb

theorem bn_update1d {st st' : BnSt} {g : Buf} (h : st.updateGradients1d g = .ok st') : st'.runMean = st.runMean ∧ st'.runVar = st.runVar := by
  simp only [BnSt.updateGradients1d, Out.bind_eq_ok] at h
  obtain ⟨_, -, _, -, _, -, _, -, _, -, _, -, _, -, _, -, _, -, _, -, _, -, _, -, _, -, h⟩ := h
  cases h
  exact ⟨rfl, rfl⟩

theorem bn_update2d {st st' : BnSt} {g : Buf} (h : st.updateGradients2d g = .ok st') : st'.runMean = st.runMean ∧ st'.runVar = st.runVar := by
  simp only [BnSt.updateGradients2d, Out.bind_eq_ok] at h
  obtain ⟨_, -, _, -, _, -, _, -, _, -, _, -, _, -, _, -, _, -, h⟩ := h
  cases h
  exact ⟨rfl, rfl⟩

theorem bn_backward2d {st : BnSt} {go gi : Buf} {r : BnSt × List ℝ} (h : st.backward2d go gi = .ok r) :
    r.1.runMean = st.runMean ∧ r.1.runVar = st.runVar := by
  simp only [BnSt.backward2d, Out.bind_eq_ok] at h
  obtain ⟨_, -, _, -, _, -, _, -, _, -, _, -, _, -, _, -, _, -, _, -, _, -, _, -, h⟩ := h
  cases h
  exact ⟨rfl, rfl⟩

theorem updateGradients_buffers {l l' : Cpu} {ins gos : List Buf} (h : l.updateGradients ins gos = .ok l') : l'.buffers = l.buffers := by
  cases l with
  | linear st =>
    simp only [Cpu.updateGradients, Out.bind_eq_ok] at h
    obtain ⟨_, -, _, -, _, -, h⟩ := h
    cases h; rfl
  | convolution st =>
    simp only [Cpu.updateGradients, Out.bind_eq_ok] at h
    obtain ⟨_, -, _, -, h⟩ := h
    cases h; rfl
  | batchNorm1D st =>
    simp only [Cpu.updateGradients, Out.bind_eq_ok] at h
    obtain ⟨_, -, _, h1, h⟩ := h
    cases h
    simp only [Cpu.buffers, bn_update1d h1]
  | batchNorm2D st =>
    simp only [Cpu.updateGradients, Out.bind_eq_ok] at h
    obtain ⟨_, -, _, h1, h⟩ := h
    cases h
    simp only [Cpu.buffers, bn_update2d h1]
  | _ => cases h; rfl

theorem writeFront_buffers {gis : List Nat} {store : List Buf} {f : Buf → Out (Cpu × List ℝ)} {r : Cpu × List Buf} {bs : List ℝ}
    (hf : ∀ b q, f b = .ok q → q.1.buffers = bs) (h : Cpu.writeFront gis store f = .ok r) : r.1.buffers = bs := by
  simp only [Cpu.writeFront, Out.bind_eq_ok] at h
  obtain ⟨_, -, _, -, _, h1, h⟩ := h
  cases h
  exact hf _ _ h1

theorem backward_buffers {env : Env} {l : Cpu} {ins outs gos : List Buf} {gis : List Nat} {store : List Buf} {r : Cpu × List Buf}
    (h : l.backward env ins outs gos gis store = .ok r) : r.1.buffers = l.buffers := by
  cases l with
  | add =>
    simp only [Cpu.backward, Out.bind_eq_ok] at h
    obtain ⟨_, -, h⟩ := h
    cases h; rfl
  | batchNorm2D st =>
    refine writeFront_buffers (fun b q hq => ?_) h
    simp only [Out.bind_eq_ok] at hq
    obtain ⟨_, -, _, h1, hq⟩ := hq
    cases hq
    simp only [Cpu.buffers, bn_backward2d h1]
  | _ =>
    refine writeFront_buffers (fun b q hq => ?_) h
    simp only [Out.bind_eq_ok] at hq
    first
      | (obtain ⟨_, -, _, -, _, -, hq⟩ := hq; cases hq; rfl)
      | (obtain ⟨_, -, _, -, hq⟩ := hq; cases hq; rfl)

/-! ### Calls that leave the running statistics alone -/

/-- The running statistics of all layers. -/
def stats (w : World) : Option (List (List ℝ)) := w.backend.map fun b => b.layers.map Cpu.buffers

/-- The running statistics are the same afterwards. -/
def Keeps {S α : Type} (wd : S → World) (x : M S α) : Prop := ∀ s, stats (wd (x s).2) = stats (wd s)

section

variable {S α β : Type} {wd : S → World}

theorem keeps_pure (a : α) : Keeps wd (pure a : M S α) := fun _ => rfl

theorem keeps_bind {x : M S α} {f : α → M S β} (hx : Keeps wd x) (hf : ∀ a, Keeps wd (f a)) : Keeps wd (x >>= f) := by
  intro s
  rw [M.bind_apply]
  have h1 := hx s
  rcases hxs : x s with ⟨o, s'⟩
  rw [hxs] at h1
  cases o with
  | ok a => exact (hf a s').trans h1
  | throw e => exact h1
  | ub u => exact h1

theorem keeps_get : Keeps wd (M.get : M S S) := fun _ => rfl

theorem keeps_lift (x : Out α) : Keeps wd (M.lift x) := fun _ => rfl

end

theorem keeps_runAll : ∀ as : List (M World Unit), (∀ a ∈ as, Keeps id a) → Keeps id (runAll as)
  | [], _ => keeps_pure _
  | a :: as, h => keeps_bind (h a (by simp)) fun _ => keeps_runAll as fun a ha => h a (by simp [ha])

theorem keeps_onLayer {k : Nat} {f : Cpu → List Buf → Out (Cpu × List Buf)} (hf : ∀ l st r, f l st = .ok r → r.1.buffers = l.buffers) :
    Keeps id (onLayer k f) := by
  intro w
  unfold onLayer
  split
  · rfl
  next b hb =>
    split
    · rfl
    next l hl =>
      split
      · rfl
      · rfl
      next l' store h =>
        simp only [stats, id, hb, Option.map_some, List.map_set, hf _ _ _ h]
        obtain ⟨h1, h2⟩ := List.getElem?_eq_some_iff.1 hl
        congr 1
        refine List.ext_getElem (by simp) fun j j1 j2 => ?_
        rw [List.getElem_set]
        split
        next e => subst e; rw [List.getElem_map, h2]
        · rfl

theorem keeps_rebind {f : Backend → Out Backend} (hf : ∀ b b', f b = .ok b' → b'.layers = b.layers) : Keeps id (rebind f) := by
  intro w
  unfold rebind
  split
  · rfl
  next b hb =>
    split
    · rfl
    · rfl
    next b' h => simp only [stats, id, hb, Option.map_some, hf _ _ h]

theorem keeps_needBackend : Keeps id needBackend := by
  intro w
  unfold needBackend
  split <;> rfl

theorem keeps_zeroGrad (i : Nat) : Keeps id (zeroGrad i) := by
  intro w
  unfold zeroGrad
  split
  · rfl
  · split
    · rfl
    · split <;> rfl

theorem keeps_backward (m : Model) (env : Nat → Env) (it ot gt : List Nat) : Keeps id (m.backward env it ot gt) := by
  have hmem : ∀ (ts ids : List Nat), Keeps id (rebind fun b => do .ok { b with mem := ← bind ts ids 0 b.mem }) := fun ts ids =>
    keeps_rebind fun b b' h => by
      obtain ⟨_, -, h⟩ := Out.bind_eq_ok.1 h
      cases h; rfl
  have hgrad : ∀ (ts ids : List Nat), Keeps id (rebind fun b => do .ok { b with grad := ← bind ts ids 0 b.grad }) := fun ts ids =>
    keeps_rebind fun b b' h => by
      obtain ⟨_, -, h⟩ := Out.bind_eq_ok.1 h
      cases h; rfl
  unfold Model.backward
  refine keeps_bind keeps_needBackend fun _ => keeps_bind (keeps_runAll _ fun a ha => ?_) fun _ => keeps_bind (hmem _ _) fun _ =>
    keeps_bind (hmem _ _) fun _ => keeps_bind (hgrad _ _) fun _ => keeps_runAll _ fun a ha => ?_
  · obtain ⟨x, -, rfl⟩ := List.mem_map.1 ha
    exact keeps_zeroGrad _
  · obtain ⟨p, -, rfl⟩ := List.mem_map.1 ha
    refine keeps_bind keeps_get fun w => keeps_onLayer fun l st r h => ?_
    simp only [backwardOp, Out.bind_eq_ok] at h
    obtain ⟨_, -, _, -, _, -, _, -, l', h1, h⟩ := h
    split at h
    · cases h
    · exact (backward_buffers h).trans (updateGradients_buffers h1)

theorem putData_buffers (f : String → Buf → Buf) (l : Cpu) : (l.putData f).buffers = l.buffers := by cases l <;> rfl

theorem train_buffers (mode : Bool) (l : Cpu) : (l.train mode).buffers = l.buffers := by cases l <;> rfl

theorem setParams_buffers (v : List ℝ) (l : Cpu) : (l.setParams v).buffers = l.buffers := by cases l <;> rfl

theorem setGrads_buffers (v : List ℝ) (l : Cpu) : (l.setGrads v).buffers = l.buffers := by cases l <;> rfl

theorem stats_trained (mode : Bool) (w : World) : stats (trained mode w) = stats w := by
  unfold stats trained
  cases w.backend with
  | none => rfl
  | some b =>
    simp only [Option.map_some, List.map_map]
    congr 2
    funext l
    exact train_buffers mode l

section

variable {σ : Type}

theorem keeps_optimizerStep (step : Optim.ParamMap → M (Optim.Opt σ) Unit) (e : Expr) (m : Model) (mode : Bool) :
    Keeps Prod.fst (optimizerStep step e m mode) := by
  intro s
  unfold optimizerStep
  split
  · rfl
  next b hb =>
    simp only [stats, hb, Option.map_some]
    congr 1
    refine List.ext_getElem (by simp) fun j j1 j2 => ?_
    simp [putData_buffers]

theorem keeps_onWorld {α : Type} {x : M World α} (h : Keeps id x) : Keeps Prod.fst (onWorld x : M (World × σ) α) := fun s => h s.1

theorem keeps_lossForward (p y : Nat) : Keeps id (lossForward p y) := fun _ => rfl

theorem keeps_lossBackward (p y g : Nat) : Keeps id (lossBackward p y g) := by
  intro w
  unfold lossBackward
  split <;> rfl

theorem keeps_loadTensors (ts : List Nat) (bs : List Buf) : Keeps id (loadTensors ts bs) := fun _ => rfl

theorem keeps_putBatch (ld : Loader ℝ) (idxs : List Int) (x y : Nat) (w : World) : stats (putBatch ld idxs x y w) = stats w := rfl

/-- An iteration changes the running statistics as its `forward` does. -/
theorem iteration_stats (step : Optim.ParamMap → M (Optim.Opt σ) Unit) (e : Expr) (m : Model) (mode : Bool) (env env' : Nat → Env)
    (it : List Nat) (p y g : Nat) (s : World × σ) :
    stats (iteration step e m mode env env' it p y g s).2.1 = stats (m.forward env it [p] s.1).2 := by
  unfold iteration
  rw [M.bind_apply]
  have : ∀ f : M (World × σ) ℝ, Keeps Prod.fst f → stats (f ((onWorld (m.forward env it [p]) : M (World × σ) Unit) s).2).2.1 =
      stats (m.forward env it [p] s.1).2 := fun f hf => hf _
  rcases h : (onWorld (m.forward env it [p]) : M (World × σ) Unit) s with ⟨o, s'⟩
  rw [h] at this
  cases o with
  | ok a =>
    exact this _ (keeps_bind (keeps_onWorld (keeps_lossForward p y)) fun _ => keeps_bind (keeps_onWorld (keeps_lossBackward p y g)) fun _ =>
      keeps_bind (keeps_onWorld (keeps_backward m env' it [p] [g])) fun _ => keeps_bind (keeps_optimizerStep step e m mode) fun _ =>
        keeps_pure _)
  | throw x => exact this (fun s => (.ub .oob, s)) fun _ => rfl
  | ub u => exact this (fun s => (.ub .oob, s)) fun _ => rfl

end

/-! ### Moving averages -/

theorem movingAverage_add (alpha start : ℝ) (s : Nat → ℝ) (d : Nat) : ∀ d', movingAverage alpha start s (d + d') =
    movingAverage alpha (movingAverage alpha start s d) (fun k => s (d + k)) d'
  | 0 => rfl
  | d' + 1 => by
    rw [← Nat.add_assoc]
    simp only [movingAverage]
    rw [movingAverage_add]

variable {e : Expr} {m : Model} {real : F32 → ℝ}

theorem running_of_stats {w w' : World} (h : stats w' = stats w) {x n : Nat} {mu var : Fin n → ℝ} (hr : RunningStats e m w x mu var) :
    RunningStats e m w' x mu var := by
  obtain ⟨b, l, hb, hl, hv⟩ := hr
  unfold stats at h
  rw [hb] at h
  cases hb' : w'.backend with
  | none => rw [hb'] at h; cases h
  | some b' =>
    rw [hb'] at h
    simp only [Option.map_some, Option.some.injEq] at h
    unfold layerAt at hl
    cases hc : e.callOf x with
    | none => rw [hc] at hl; cases hl
    | some c =>
      rw [hc, Option.bind_some] at hl
      have h1 : (b'.layers.map Cpu.buffers)[(sortedOps m.sorted).idxOf c]? = some l.buffers := by rw [h, List.getElem?_map, hl]; rfl
      rw [List.getElem?_map, Option.map_eq_some_iff] at h1
      obtain ⟨l', h2, h3⟩ := h1
      exact ⟨b', l', hb', by unfold layerAt; rw [hc, Option.bind_some, h2], h3.trans hv⟩

theorem movingAverage_congr (alpha start : ℝ) {s s' : Nat → ℝ} {d : Nat} (h : ∀ j < d, s j = s' j) :
    movingAverage alpha start s d = movingAverage alpha start s' d := by
  induction d with
  | zero => rfl
  | succ d ih =>
    simp only [movingAverage]
    rw [ih fun j hj => h j (by omega), h d (by omega)]

theorem _root_.DW.Spec.Averaged.congr {v v' : Nat → Vals e} {d : Nat} {w w' : World} (h : Averaged e m real v d w w')
    (hv : ∀ j < d, v j = v' j) : Averaged e m real v' d w w' := by
  intro x hx alpha n mu var hs mu₀ var₀ hr
  have := h x hx alpha n mu var hs mu₀ var₀ hr
  have c : ∀ (f : Vals e → Fin n → ℝ) (s : Fin n → ℝ), (fun j => movingAverage (real alpha) (s j) (fun k => f (v' k) j) d) =
      fun j => movingAverage (real alpha) (s j) (fun k => f (v k) j) d := fun f s =>
    funext fun j => movingAverage_congr _ _ fun k hk => by rw [hv k hk]
  rw [c mu, c var]
  exact this

theorem averaged_zero {w w' : World} (h : stats w' = stats w) (v : Nat → Vals e) : Averaged e m real v 0 w w' :=
  fun _ _ _ _ _ _ _ _ _ hr => running_of_stats h hr

theorem _root_.DW.Spec.Averaged.trans {v : Nat → Vals e} {d d' : Nat} {w w' w'' : World} (h : Averaged e m real v d w w')
    (h' : Averaged e m real (fun k => v (d + k)) d' w' w'') : Averaged e m real v (d + d') w w'' := by
  intro x hx alpha n mu var hs mu₀ var₀ hr
  have := h' x hx alpha n mu var hs _ _ (h x hx alpha n mu var hs mu₀ var₀ hr)
  simp only [movingAverage_add]
  exact this

theorem _root_.DW.Spec.Averaged.keep {v : Nat → Vals e} {d : Nat} {w w' w'' : World} (h : Averaged e m real v d w w') (hs : stats w'' = stats w') :
    Averaged e m real v d w w'' := h.trans (averaged_zero hs _)

theorem _root_.DW.Spec.Averaged.from {v : Nat → Vals e} {d : Nat} {w w' w'' : World} (h : Averaged e m real v d w' w'') (hs : stats w' = stats w) :
    Averaged e m real v d w w'' := fun x hx alpha n mu var hb mu₀ var₀ hr =>
  h x hx alpha n mu var hb mu₀ var₀ (running_of_stats hs hr)

/-! ### `forward` -/

variable {topo : Graph → List Node} {ins outs : List Nat} {tensors : Nat → InfoTensors} {L : Layers e} {θ₀ θ : L.Params}
  {last : Option ((Nat → Env) × Vals e)} {w : World} {b : Backend} {env : Nat → Env} {it ot : List Nat} {v : Vals e}

theorem args_shapes (e : Expr) (x : Nat) :
    (List.ofFn fun j : Fin (e.argsOf x).length => phShape e (e.argsOf x)[j]) = (e.argsOf x).map (phShape e) :=
  List.ext_getElem (by simp) fun j j1 j2 => by simp

/-- `forward` in training mode. -/
theorem forward_averages (B : Built topo e ins outs m real tensors L θ₀)
    (htr : ∀ x ∈ dataOf m, ∀ c, e.callOf x = some c → Trainable (tensors (e.callInfo c)))
    (h : History e ins outs m real tensors L θ₀ θ last w) (ha : FwdArgs e m ins outs w b it ot) (hp : ∀ c, IsPick (env c).pick)
    (hv : (L.net m env).Evaluates θ v) (hc : Carry e w ins it v) (vs : Nat → Vals e) (h0 : vs 0 = v) :
    Averaged e m real vs 1 w (m.forward env it ot w).2 := by
  obtain ⟨R, K, hk, hs⟩ := kit_exists B
  obtain ⟨w', b', r1, r2, -, -, -, -, r3⟩ := live_forward_ran (plan B) B.sound hk (live B hk hs h) ha hp hv hc
  rw [r1]
  intro x hx alpha n mu var hbs mu₀ var₀ ⟨b₁, l₁, q1, q2, q3⟩
  obtain rfl := Option.some.inj (ha.backend.symm.trans q1)
  simp only [movingAverage, h0]
  cases hbs with
  | norm1d hcx hop hargs hsh =>
    obtain ⟨l, l', s1, s2, s3, old, s4, s5⟩ := r3 x hx _ hcx
    obtain rfl := Option.some.inj (q2.symm.trans s1)
    have hf := (hs.layer x hx _ hcx).form _ _ s3
    refine ⟨b', l', r2, s2, ?_⟩
    rw [show bufs (argv v x) = [_] from (bufs_map v (e.argsOf x)).trans (by rw [hargs]; rfl)] at s5
    have hf := hf _ (by rw [args_shapes, hargs]; rfl)
    rw [hop] at hf
    exact forward_stats1d hsh hf (htr x hx _ hcx) s4 s5 q3
  | norm2d hcx hop hargs hsh =>
    obtain ⟨l, l', s1, s2, s3, old, s4, s5⟩ := r3 x hx _ hcx
    obtain rfl := Option.some.inj (q2.symm.trans s1)
    have hf := (hs.layer x hx _ hcx).form _ _ s3
    refine ⟨b', l', r2, s2, ?_⟩
    rw [show bufs (argv v x) = [_] from (bufs_map v (e.argsOf x)).trans (by rw [hargs]; rfl)] at s5
    have hf := hf _ (by rw [args_shapes, hargs]; rfl)
    rw [hop] at hf
    exact forward_stats2d hsh hf (htr x hx _ hcx) s4 s5 q3

/-- Nothing changes the running statistics in evaluation mode. -/
theorem frozen_stats (B : Built topo e ins outs m real tensors L θ₀)
    (hfr : ∀ x ∈ dataOf m, ∀ c, e.callOf x = some c → Frozen (tensors (e.callInfo c))) {θ' : L.Params}
    {last' : Option ((Nat → Env) × Vals e)} {w' : World} (h : History e ins outs m real tensors L θ₀ θ last w)
    (h' : History e ins outs m real tensors L θ₀ θ' last' w') (vs : Nat → Vals e) : Averaged e m real vs 0 w w' := by
  obtain ⟨R, K, hk, hs⟩ := kit_exists B
  intro x hx alpha n mu var hbs mu₀ var₀ ⟨b₁, l₁, q1, q2, q3⟩
  obtain ⟨b₂, i1, i2, -⟩ := live B hk hs h
  obtain ⟨b₃, j1, j2, -⟩ := live B hk hs h'
  obtain rfl := Option.some.inj (q1.symm.trans i1.backend)
  have hcx : ∃ c, e.callOf x = some c := by cases hbs <;> exact ⟨_, ‹_›⟩
  obtain ⟨c, hcx⟩ := hcx
  obtain ⟨l, s1, s2⟩ := i2 x hx (by rw [hcx]; rfl)
  obtain ⟨l', t1, t2⟩ := j2 x hx (by rw [hcx]; rfl)
  obtain rfl := Option.some.inj (q2.symm.trans s1)
  exact ⟨b₃, l', j1.backend, t1, ((hs.layer x hx c hcx).still (hfr x hx c hcx) _ _ _ _ s2 t2).symm.trans q3⟩

end

end DW.RunL
