import Verif.Props.Train
import Verif.Props.Optimizer
/-! # Optimizers on the parameters of a model -/

set_option autoImplicit false

namespace DW.TrainL

open DW DW.Spec DW.HistL DW.BackendL DW.NetL DW.GraphL DW.Props.ContractP DW.Props.BackendP DW.Optim

noncomputable section

theorem tensorsOf_names (mode : Bool) (l : Cpu) : ((tensorsOf mode l).params.map Prod.fst).Nodup := by
  cases l <;> simp [tensorsOf]

theorem mem_objects {mode : Bool} {layers : List Cpu} {k : Nat} {n : String} {p : Parameter} :
    ((k, n), p) ∈ objects mode layers ↔ ∃ l, layers[k]? = some l ∧ (n, p) ∈ (tensorsOf mode l).params := by
  unfold objects
  rw [List.mem_flatMap]
  constructor
  · rintro ⟨⟨l, k'⟩, h1, h2⟩
    obtain ⟨⟨n', p'⟩, h3, h4⟩ := List.mem_map.1 h2
    simp only [Prod.mk.injEq] at h4
    obtain ⟨⟨rfl, rfl⟩, rfl⟩ := h4
    exact ⟨l, List.mem_zipIdx_iff_getElem?.1 h1, h3⟩
  · rintro ⟨l, h1, h2⟩
    exact ⟨(l, k), List.mem_zipIdx_iff_getElem?.2 h1, List.mem_map.2 ⟨(n, p), h2, rfl⟩⟩

theorem objectNo_get {mode : Bool} {layers : List Cpu} {k : Nat} {n : String} {p : Parameter} {l : Cpu} (hl : layers[k]? = some l)
    (hp : (n, p) ∈ (tensorsOf mode l).params) : (objects mode layers)[objectNo mode layers k n]? = some ((k, n), p) := by
  have hex : ∃ o ∈ objects mode layers, (o.1 == (k, n)) = true := ⟨((k, n), p), mem_objects.2 ⟨l, hl, hp⟩, by simp⟩
  have hlt : objectNo mode layers k n < (objects mode layers).length := List.findIdx_lt_length.2 hex
  rw [List.getElem?_eq_getElem hlt]
  have hkey : (objects mode layers)[objectNo mode layers k n].1 = (k, n) := by
    have := List.findIdx_getElem (xs := objects mode layers) (p := fun o : (Nat × String) × Parameter => o.1 == (k, n)) (w := hlt)
    exact beq_iff_eq.1 this
  have hmem := List.getElem_mem hlt
  generalize (objects mode layers)[objectNo mode layers k n] = o at hkey hmem
  obtain ⟨⟨k', n'⟩, p'⟩ := o
  simp only [Prod.mk.injEq] at hkey
  obtain ⟨rfl, rfl⟩ := hkey
  obtain ⟨l', h1, h2⟩ := mem_objects.1 hmem
  obtain rfl := Option.some.inj (hl.symm.trans h1)
  have := List.inj_on_of_nodup_map (tensorsOf_names mode l) hp h2 rfl
  rw [(Prod.mk.inj this).2]

variable {topo : Graph → List Node} {e : Expr} {ins outs : List Nat} {m : Model} {real : F32 → ℝ} {tensors : Nat → InfoTensors}
  {L : Layers e} {θ₀ : L.Params}

/-- The parameters of a layer object are those of its operation. -/
theorem names_of_sane {s o : Shape} {op : Op} {l : Cpu} (h : Sane real s o op l) (mode : Bool) :
    (tensorsOf mode l).params.map Prod.fst = paramNames op := by
  cases op <;> simp only [Sane] at h
  case linear => obtain ⟨st, rfl⟩ := h; rfl
  case batchNorm1D => obtain ⟨st, rfl, -⟩ := h; rfl
  case batchNorm2D => obtain ⟨st, rfl, -⟩ := h; rfl
  case maxPooling => obtain ⟨st, rfl, -⟩ := h; rfl
  case convolution => obtain ⟨st, rfl, -⟩ := h; rfl
  case dropout => obtain ⟨st, rfl, -⟩ := h; rfl
  all_goals (subst h; rfl)

theorem infos_inj (B : Built topo e ins outs m real tensors L θ₀) {c d : Nat} (hc : c ∈ sortedOps m.sorted)
    (hd : d ∈ sortedOps m.sorted) (h : e.callInfo c = e.callInfo d) : c = d := by
  obtain ⟨x, hx, hxc⟩ := (plan B).op c hc
  obtain ⟨y, hy, hyd⟩ := (plan B).op d hd
  obtain rfl := infos_distinct B x hx y hy c d hxc hyd h
  exact Option.some.inj (hxc.symm.trans hyd)

/-- The number of a layer, by its `LayerInfo`. -/
theorem layerNo (B : Built topo e ins outs m real tensors L θ₀) {c : Nat} (hc : c ∈ sortedOps m.sorted) :
    (sortedOps m.sorted).findIdx (fun d => e.callInfo d == e.callInfo c) = (sortedOps m.sorted).idxOf c := by
  have hlt := List.findIdx_lt_length (p := fun d => e.callInfo d == e.callInfo c) |>.2 ⟨c, hc, by simp⟩
  have h1 := List.findIdx_getElem (p := fun d => e.callInfo d == e.callInfo c) (w := hlt)
  have h2 := infos_inj B (List.getElem_mem hlt) hc (beq_iff_eq.1 h1)
  have h3 := (plan B).ops_nodup.idxOf_getElem _ hlt
  rw [h2] at h3
  exact h3.symm

theorem computes_args {t : InfoTensors} {op : Op} {n : Nat} {ishape : Fin n → Shape} {o : Shape} {P : Nat}
    {f : (Nat → ℝ) → (Fin P → ℝ) → Args ishape → Elems o} {θ : Fin P → ℝ} {exact : Prop}
    (h : Computes real t op ishape o P f θ exact) : 0 < n := by
  cases h <;> omega

/-- What is known of the layer objects after a history. -/
theorem layer_facts (B : Built topo e ins outs m real tensors L θ₀) {θ : L.Params} {last : Option ((Nat → Env) × Vals e)} {w : World}
    (h : History e ins outs m real tensors L θ₀ θ last w) {b : Backend} (hb : w.backend = some b) :
    b.layers.length = (sortedOps m.sorted).length ∧
    ∀ x ∈ dataOf m, ∀ c, e.callOf x = some c → ∃ l, layerAt e m b x = some l ∧ l.params = List.ofFn (θ x) ∧ l.ParamsFit ∧
      ∀ mode, (tensorsOf mode l).params.map Prod.fst = paramNames (infoOf e (e.callInfo c)).op := by
  obtain ⟨R, K, hk, hs⟩ := kit_exists B
  obtain ⟨b', hC, h1, -⟩ := live B hk hs h
  obtain rfl : b' = b := Option.some.inj (hC.backend.symm.trans hb)
  refine ⟨hC.layers_len, fun x hx c hc => ?_⟩
  obtain ⟨l, e1, e2⟩ := h1 x hx (by simp [hc])
  have hst := hs.layer x hx c hc
  refine ⟨l, e1, ?_, (hst.holds _ l e2).2, fun mode => ?_⟩
  · have := hk.ready (fun _ => ⟨fun _ => 0, fun _ => 0, fun _ => 0⟩) θ x hx (by simp [hc])
    exact (K _ θ x).params (by rw [this]; exact e2)
  · have hne : 0 < (e.argsOf x).length := by
      exact computes_args (B.layers x hx c hc)
    refine names_of_sane (hst.sane _ l e2 (phShape e ((e.argsOf x)[0])) ?_) mode
    obtain ⟨n, hn⟩ := Nat.exists_eq_succ_of_ne_zero hne.ne'
    rw [List.head?_eq_getElem?, List.getElem?_ofFn]
    simp [hne]

section step

variable {θ : L.Params} {last : Option ((Nat → Env) × Vals e)} {w : World} {b : Backend}

/-- The layer object of an application. -/
theorem layer_get (B : Built topo e ins outs m real tensors L θ₀) (h : History e ins outs m real tensors L θ₀ θ last w)
    (hb : w.backend = some b) {c : Nat} (hc : c ∈ sortedOps m.sorted) : ∃ l, b.layers[(sortedOps m.sorted).idxOf c]? = some l ∧
      l.ParamsFit ∧ ∀ mode, (tensorsOf mode l).params.map Prod.fst = paramNames (infoOf e (e.callInfo c)).op := by
  obtain ⟨x, hx, hxc⟩ := (plan B).op c hc
  obtain ⟨l, e1, -, e2, e3⟩ := (layer_facts B h hb).2 x hx c hxc
  unfold layerAt at e1
  rw [hxc] at e1
  exact ⟨l, e1, e2, e3⟩

theorem mem_fits {mode : Bool} {l : Cpu} (hf : l.ParamsFit) {n : String} {p : Parameter} (hp : (n, p) ∈ (tensorsOf mode l).params) :
    p.grad.shape = p.data.shape ∧ p.grad.vals.length = p.data.vals.length := by
  cases l <;> simp [tensorsOf] at hp
  case dropout => rw [hp.2]; exact ⟨rfl, by simp⟩
  all_goals
    rcases hp with ⟨-, rfl⟩ | ⟨-, rfl⟩
    · exact hf.1
    · exact hf.2

/-- The entries of `params()`. -/
theorem paramMap_mem (B : Built topo e ins outs m real tensors L θ₀) (h : History e ins outs m real tensors L θ₀ θ last w)
    (hb : w.backend = some b) (mode : Bool) {k i : _} {n : String} (hm : (k, i, n) ∈ m.params) :
    ∃ c ∈ sortedOps m.sorted, i = e.callInfo c ∧ ∃ e', ∃ l p, k = (infoOf e' i).name ++ "." ++ n ∧
      b.layers[(sortedOps m.sorted).idxOf c]? = some l ∧ l.ParamsFit ∧ (n, p) ∈ (tensorsOf mode l).params ∧
      (objects mode b.layers)[objectNo mode b.layers ((sortedOps m.sorted).findIdx fun c => e.callInfo c == i) n]? =
        some (((sortedOps m.sorted).idxOf c, n), p) := by
  obtain ⟨e', hctor⟩ := B.ctor
  obtain ⟨c, hc, rfl, hn, rfl⟩ := ((Props.GraphP.params_state_exact B.reachable B.sorts hctor).1 k i n).1 hm
  have hc := ((Props.GraphP.model_layers_exact B.reachable B.sorts hctor).2.1 c).2 hc
  obtain ⟨l, e1, e2, e3⟩ := layer_get B h hb hc
  rw [← e3 mode] at hn
  obtain ⟨⟨n', p⟩, hp, rfl⟩ := List.mem_map.1 hn
  refine ⟨c, hc, rfl, e', l, p, rfl, e1, e2, hp, ?_⟩
  rw [layerNo B hc]
  exact objectNo_get e1 hp

theorem paramMap_ok (B : Built topo e ins outs m real tensors L θ₀) (h : History e ins outs m real tensors L θ₀ θ last w)
    (hb : w.backend = some b) (mode : Bool) :
    OptL.ParamsOk ((objects mode b.layers).map Prod.snd) (paramMap e m mode b.layers) := by
  obtain ⟨e', hctor⟩ := B.ctor
  have hkeys := (Props.GraphP.keys_distinct B.reachable hctor).1
  refine ⟨?_, ?_, fun y hy => ?_⟩
  · unfold paramMap
    rw [List.map_map]
    exact hkeys
  · unfold paramMap
    rw [List.map_map]
    refine List.Nodup.map_on ?_ hkeys.of_map
    rintro ⟨k, i, n⟩ h1 ⟨k', i', n'⟩ h2 heq
    have hk := List.inj_on_of_nodup_map hkeys h1 h2
    obtain ⟨c, hc, rfl, _, l, p, -, -, -, -, g1⟩ := paramMap_mem B h hb mode h1
    obtain ⟨d, hd, rfl, _, l', p', -, -, -, -, g2⟩ := paramMap_mem B h hb mode h2
    simp only [Function.comp_apply] at heq
    rw [heq, g2] at g1
    simp only [Option.some.injEq, Prod.mk.injEq] at g1
    obtain ⟨⟨g1, rfl⟩, -⟩ := g1
    have hcd : d = c := (List.idxOf_inj hd).1 g1
    subst hcd
    obtain ⟨c1, hc1, hi1, k1, rfl⟩ := ((Props.GraphP.params_state_exact B.reachable B.sorts hctor).1 _ _ _).1 h1
    obtain ⟨c2, hc2, hi2, k2, rfl⟩ := ((Props.GraphP.params_state_exact B.reachable B.sorts hctor).1 _ _ _).1 h2
    rfl
  · unfold paramMap at hy
    obtain ⟨⟨k, i, n⟩, h1, rfl⟩ := List.mem_map.1 hy
    obtain ⟨c, hc, rfl, _, l, p, -, -, h3, h4, g1⟩ := paramMap_mem B h hb mode h1
    exact ⟨p, by rw [List.getElem?_map, g1]; rfl, mem_fits h3 h4⟩

/-- All parameter objects are in `params()`. -/
theorem paramMap_all (B : Built topo e ins outs m real tensors L θ₀) (h : History e ins outs m real tensors L θ₀ θ last w)
    (hb : w.backend = some b) (mode : Bool) {k : Nat} {l : Cpu} (hl : b.layers[k]? = some l) {n : String} {p : Parameter}
    (hp : (n, p) ∈ (tensorsOf mode l).params) :
    objectNo mode b.layers k n ∈ (paramMap e m mode b.layers).map Prod.snd := by
  obtain ⟨e', hctor⟩ := B.ctor
  have hlen := (layer_facts B h hb).1
  have hk : k < (sortedOps m.sorted).length := by rw [← hlen]; exact (List.getElem?_eq_some_iff.1 hl).1
  have hc := List.getElem_mem hk
  have hidx := (plan B).ops_nodup.idxOf_getElem k hk
  obtain ⟨l', e1, e2, e3⟩ := layer_get B h hb hc
  rw [hidx] at e1
  obtain rfl := Option.some.inj (hl.symm.trans e1)
  have hn : n ∈ paramNames (infoOf e (e.callInfo (sortedOps m.sorted)[k])).op := by
    rw [← e3 mode]; exact List.mem_map.2 ⟨_, hp, rfl⟩
  have hmem := ((Props.GraphP.params_state_exact B.reachable B.sorts hctor).1 _ _ n).2
    ⟨_, ((Props.GraphP.model_layers_exact B.reachable B.sorts hctor).2.1 _).1 hc, rfl, hn, rfl⟩
  unfold paramMap
  rw [List.map_map]
  refine List.mem_map.2 ⟨_, hmem, ?_⟩
  simp only [Function.comp_apply]
  rw [layerNo B hc, hidx]

theorem take_zip {f : ℝ → ℝ → ℝ} {a a' b b' : List ℝ} (h : a'.length = a.length) :
    (List.zipWith f (a ++ b) (a' ++ b')).take a.length = List.zipWith f a a' ∧
    (List.zipWith f (a ++ b) (a' ++ b')).drop a.length = List.zipWith f b b' := by
  have hl : (List.zipWith f a a').length = a.length := by simp [h]
  rw [List.zipWith_append h.symm]
  exact ⟨List.take_left' hl, List.drop_left' hl⟩

theorem zip_zero {f : ℝ → ℝ → ℝ} (hf : ∀ u, f u 0 = u) : ∀ a : List ℝ, List.zipWith f a (List.replicate a.length 0) = a
  | [] => rfl
  | u :: a => by simp [List.replicate_succ, hf, zip_zero hf a]

/-- An update of each number by its gradient, that does nothing if the gradient is 0, seen from the layer object. -/
theorem putData_zip {f : ℝ → ℝ → ℝ} (hf : ∀ u, f u 0 = u) {mode : Bool} {l : Cpu} (hl : l.ParamsFit) {F : String → Buf → Buf}
    (hF : ∀ n p, (n, p) ∈ (tensorsOf mode l).params → F n p.data = p.data.put (List.zipWith f p.data.vals p.grad.vals)) :
    l.putData F = l.setParams (List.zipWith f l.params l.grads) := by
  cases l with
  | linear st =>
    have h1 := hF "weight" _ (by simp [tensorsOf]; rfl)
    have h2 := hF "bias" ⟨st.bias, st.gradBias, mode⟩ (by simp [tensorsOf])
    obtain ⟨t1, t2⟩ := take_zip (f := f) (b := st.bias.vals) (b' := st.gradBias.vals) hl.1.2
    simp only [Cpu.putData, Cpu.setParams, Cpu.params, Cpu.grads, t1, t2, h2]
    rw [h1]
  | convolution st =>
    have h1 := hF "weight" ⟨st.weight, st.gradWeight, mode⟩ (by simp [tensorsOf])
    have h2 := hF "bias" ⟨st.bias, st.gradBias, mode⟩ (by simp [tensorsOf])
    obtain ⟨t1, t2⟩ := take_zip (f := f) (b := st.bias.vals) (b' := st.gradBias.vals) hl.1.2
    simp only [Cpu.putData, Cpu.setParams, Cpu.params, Cpu.grads, t1, t2, h1, h2]
  | batchNorm1D st =>
    have h1 := hF "gamma" ⟨st.gamma, st.gradGamma, mode⟩ (by simp [tensorsOf])
    have h2 := hF "beta" ⟨st.beta, st.gradBeta, mode⟩ (by simp [tensorsOf])
    obtain ⟨t1, t2⟩ := take_zip (f := f) (b := st.beta.vals) (b' := st.gradBeta.vals) hl.1.2
    simp only [Cpu.putData, Cpu.setParams, Cpu.params, Cpu.grads, t1, t2, h1, h2]
  | batchNorm2D st =>
    have h1 := hF "gamma" ⟨st.gamma, st.gradGamma, mode⟩ (by simp [tensorsOf])
    have h2 := hF "beta" ⟨st.beta, st.gradBeta, mode⟩ (by simp [tensorsOf])
    obtain ⟨t1, t2⟩ := take_zip (f := f) (b := st.beta.vals) (b' := st.gradBeta.vals) hl.1.2
    simp only [Cpu.putData, Cpu.setParams, Cpu.params, Cpu.grads, t1, t2, h1, h2]
  | dropout st =>
    have h1 := hF "mask" ⟨st.mask, ⟨st.mask.shape, List.replicate st.mask.vals.length 0⟩, mode⟩ (by simp [tensorsOf])
    simp only at h1
    rw [zip_zero hf] at h1
    simp only [Cpu.putData, Cpu.setParams, h1]
    rfl
  | _ => rfl

/-- `SGD::step` on the parameters of a model in training: every layer gets `θ - lr*grad`. -/
theorem sgd_layers (B : Built topo e ins outs m real tensors L θ₀) (h : History e ins outs m real tensors L θ₀ θ last w)
    (hb : w.backend = some b) (lr : ℝ) :
    ∃ b', optimizerStep sgdStep e m true (w, lr) = (.ok (), { w with backend := some b' }, lr) ∧
      ChangedLayers e m b b' fun _ l => l.setParams (List.zipWith (fun u g => u - lr * g) l.params l.grads) := by
  obtain ⟨s', h1, h2, -, h3, -⟩ := Props.OptP.sgd_step_store (s := ⟨(objects true b.layers).map Prod.snd, lr⟩) (paramMap_ok B h hb true)
  have hopt : optimizerStep sgdStep e m true (w, lr) = (.ok (), { w with backend := some { b with layers := b.layers.mapIdx (fun k l =>
      l.putData (fun name old => ((s'.store[objectNo true b.layers k name]?).map fun p => p.data).getD old)) } }, lr) := by
    unfold optimizerStep
    simp only [hb, h1]
    rw [h2]
  refine ⟨_, hopt, rfl, rfl, by simp, fun x hx l hl => ?_⟩
  cases hc : e.callOf x with
  | none => unfold layerAt at hl; rw [hc] at hl; cases hl
  | some c =>
    obtain ⟨l', e1, -, e2, -⟩ := (layer_facts B h hb).2 x hx c hc
    obtain rfl := Option.some.inj (hl.symm.trans e1)
    unfold layerAt at hl ⊢
    rw [hc] at hl ⊢
    simp only [Option.bind_some] at hl ⊢
    rw [List.getElem?_mapIdx, hl, Option.map_some]
    congr 1
    refine putData_zip (mode := true) (fun u => by ring) e2 fun n p hp => ?_
    have hget : ((objects true b.layers).map Prod.snd)[objectNo true b.layers ((sortedOps m.sorted).idxOf c) n]? = some p := by
      rw [List.getElem?_map, objectNo_get hl hp]; rfl
    have htr : p.trainable = true := by
      clear h3 hget hopt h1 h2
      cases l <;> simp [tensorsOf] at hp
      case dropout => rw [hp.2]
      all_goals rcases hp with ⟨-, rfl⟩ | ⟨-, rfl⟩ <;> rfl
    rw [h3 _ p hget htr (paramMap_all B h hb true hl hp)]
    rfl

end step

end

end DW.TrainL
