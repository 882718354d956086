import Verif.Lemmas.Training
/-! # An optimizer with state, on the parameters of a model -/

set_option autoImplicit false

namespace DW.TrainL

open DW DW.Spec DW.HistL DW.BackendL DW.NetL DW.GraphL DW.Props.ContractP DW.Props.BackendP DW.Optim DW.OptL

noncomputable section

/-- An optimizer, number by number. -/
structure Rule (σ A C E : Type) where
  V : View σ A C
  body : String → Parameter → M (Opt σ) (List ℝ)
  W : C → A → Parameter → List ℝ
  N : C → A → Parameter → A
  el : Elementwise V E W N
  pre : σ → σ
  step : ParamMap → M (Opt σ) Unit
  /-- The state of a number that never moved. -/
  idle : E
  body_ok : ∀ (name : String) (p : Parameter) (s : Opt σ) (a : A), V.look s.aux name = some a →
    (el.len a p.grad.vals.length ∧ p.grad.vals.length = p.data.vals.length) →
    body name p s = (.ok (W (V.const s.aux) a p), { s with aux := V.upd s.aux name (N (V.const s.aux) a p) })
  step_eq : ∀ params s, step params s = eachTrainable body params { s with aux := pre s.aux }
  pre_look : ∀ s k, V.look (pre s) k = V.look s k
  idle_w : ∀ c w, el.ew c w idle 0 = w
  idle_n : ∀ c, el.en c idle 0 = idle

variable {σ A C E : Type}

/-- Three lists together. -/
def zip3 (f : ℝ → E → ℝ → ℝ) (D : List ℝ) (S : List E) (G : List ℝ) : List ℝ := List.zipWith (fun w q => f w q.1 q.2) D (S.zip G)

/-- The entries of the tables for the named tensors hold the states `S`, one tensor after the other. -/
def Parts (ru : Rule σ A C E) (look : String → Option A) (key : String → String) : List (String × Nat) → List E → Prop
  | [], S => S = []
  | (n, k) :: rest, S => k ≤ S.length ∧ (∃ a, look (key n) = some a ∧ ru.el.len a k ∧ ∀ i < k, ru.el.nth a i = S[i]?) ∧
    Parts ru look key rest (S.drop k)

def sizesOf (ps : List (String × Parameter)) : List (String × Nat) := ps.map fun q => (q.1, q.2.data.vals.length)

def gradsOf (ps : List (String × Parameter)) : List ℝ := ps.flatMap fun q => q.2.grad.vals

def datasOf (ps : List (String × Parameter)) : List ℝ := ps.flatMap fun q => q.2.data.vals

theorem Parts.length {ru : Rule σ A C E} {look : String → Option A} {key : String → String} : ∀ {z : List (String × Nat)} {S : List E},
    Parts ru look key z S → S.length = (z.map Prod.snd).sum
  | [], S, h => by rw [show S = [] from h]; rfl
  | (n, k) :: rest, S, h => by
    have := Parts.length h.2.2
    rw [List.length_drop] at this
    simp only [List.map_cons, List.sum_cons]
    have := h.1
    omega

theorem parts_get {ru : Rule σ A C E} {look : String → Option A} {key : String → String} : ∀ {ps : List (String × Parameter)} {S : List E},
    Parts ru look key (sizesOf ps) S → ∀ q ∈ ps, ∃ a, look (key q.1) = some a ∧ ru.el.len a q.2.data.vals.length
  | q :: ps, S, h, q', hq => by
    obtain ⟨-, ⟨a, ha, hl, -⟩, hr⟩ := h
    rcases List.mem_cons.1 hq with rfl | hq
    · exact ⟨a, ha, hl⟩
    · exact parts_get hr q' hq

theorem zip3_append {f : ℝ → E → ℝ → ℝ} {D D' G G' : List ℝ} {S S' : List E} (h1 : S.length = D.length) (h2 : G.length = D.length) :
    zip3 f (D ++ D') (S ++ S') (G ++ G') = zip3 f D S G ++ zip3 f D' S' G' := by
  unfold zip3
  rw [List.zip_append (by omega), List.zipWith_append (by simp; omega)]

/-- The update of the tables and of the data, seen as one list. -/
theorem parts_step {ru : Rule σ A C E} {look look' : String → Option A} {key : String → String} {c : C} :
    ∀ {ps : List (String × Parameter)} {S : List E}, (∀ q ∈ ps, q.2.grad.vals.length = q.2.data.vals.length) →
      Parts ru look key (sizesOf ps) S →
      (∀ q ∈ ps, ∀ a, look (key q.1) = some a → look' (key q.1) = some (ru.N c a q.2)) →
      Parts ru look' key (sizesOf ps) (List.zipWith (ru.el.en c) S (gradsOf ps)) ∧
      ps.flatMap (fun q => ((look (key q.1)).map fun a => ru.W c a q.2).getD []) = zip3 (ru.el.ew c) (datasOf ps) S (gradsOf ps) ∧
      ∀ q ∈ ps, ∃ a, look (key q.1) = some a ∧ ru.el.len a q.2.grad.vals.length ∧ (ru.W c a q.2).length = q.2.data.vals.length
  | [], S, _, h, _ => by
    obtain rfl : S = [] := h
    exact ⟨rfl, rfl, by simp⟩
  | q :: ps, S, hf, h, hl => by
    obtain ⟨hk, ⟨a, ha, hlen, hn⟩, hr⟩ := h
    have hfq := hf q (by simp)
    rw [← hfq] at hlen
    obtain ⟨i1, i2, i3⟩ := parts_step (c := c) (fun q h => hf q (by simp [h])) hr fun q h => hl q (by simp [h])
    have hS : S = S.take q.2.data.vals.length ++ S.drop q.2.data.vals.length := (List.take_append_drop _ _).symm
    have hT : (S.take q.2.data.vals.length).length = q.2.data.vals.length := by simp [hk]
    have hg : gradsOf (q :: ps) = q.2.grad.vals ++ gradsOf ps := rfl
    have hd : datasOf (q :: ps) = q.2.data.vals ++ datasOf ps := rfl
    have hz : List.zipWith (ru.el.en c) S (gradsOf (q :: ps)) = List.zipWith (ru.el.en c) (S.take q.2.data.vals.length) q.2.grad.vals ++
        List.zipWith (ru.el.en c) (S.drop q.2.data.vals.length) (gradsOf ps) := by
      conv_lhs => rw [hS, hg]
      exact List.zipWith_append (by rw [hT, hfq])
    have hzl : (List.zipWith (ru.el.en c) (S.take q.2.data.vals.length) q.2.grad.vals).length = q.2.data.vals.length := by
      rw [List.length_zipWith, hT, hfq, Nat.min_self]
    have hWl := ru.el.len_W c a q.2 hlen hfq
    have hget : ∀ i < q.2.data.vals.length, ∃ w s g, q.2.data.vals[i]? = some w ∧ S[i]? = some s ∧ q.2.grad.vals[i]? = some g ∧
        ru.el.nth a i = some s := fun i hi => by
      refine ⟨_, _, _, List.getElem?_eq_getElem hi, List.getElem?_eq_getElem (by omega), List.getElem?_eq_getElem (by omega), ?_⟩
      rw [hn i hi, List.getElem?_eq_getElem]
    refine ⟨⟨?_, ⟨ru.N c a q.2, hl q (by simp) a ha, ?_, fun i hi => ?_⟩, ?_⟩, ?_, fun q' hq' => ?_⟩
    · show q.2.data.vals.length ≤ _
      rw [hz, List.length_append, hzl]
      omega
    · have := ru.el.len_N c a q.2 hlen
      rwa [hfq] at this
    · obtain ⟨w, s, g, -, e2, e3, e4⟩ := hget i hi
      rw [ru.el.nth_N c a q.2 i s g e4 e3, List.getElem?_zipWith, e2, hg, List.getElem?_append_left (by omega), e3]
    · show Parts ru look' key (sizesOf ps) (List.drop q.2.data.vals.length _)
      rw [hz, List.drop_left' hzl]
      exact i1
    · rw [List.flatMap_cons, i2, hd, hg]
      conv_rhs => rw [hS]
      rw [zip3_append (by rw [hT]) hfq, ha]
      congr 1
      refine List.ext_getElem? fun i => ?_
      by_cases hi : i < q.2.data.vals.length
      · obtain ⟨w, s, g, e1, e2, e3, e4⟩ := hget i hi
        show (ru.W c a q.2)[i]? = _
        rw [ru.el.nth_W c a q.2 i w s g e1 e4 e3]
        unfold zip3
        rw [List.getElem?_zipWith, e1, (List.getElem?_zip_eq_some (z := (s, g))).2
          ⟨by rw [List.getElem?_take, if_pos hi]; exact e2, e3⟩]
      · rw [List.getElem?_eq_none (by show (ru.W c a q.2).length ≤ i; omega), List.getElem?_eq_none (by simp [zip3]; omega)]
    · rcases List.mem_cons.1 hq' with rfl | hq'
      · exact ⟨a, ha, hlen, hWl⟩
      · exact i3 q' hq'

/-- The states of all tensors of a layer object, from those of its parameters: the mask of dropout has no gradient. -/
def fullState (ru : Rule σ A C E) : Cpu → List E → List E
  | .dropout st, _ => List.replicate st.mask.vals.length ru.idle
  | _, S => S

theorem sizes_tensorsOf (l : Cpu) (mode : Bool) : l.sizes = sizesOf (tensorsOf mode l).params := by
  cases l <;> rfl

theorem zip_idle_n {ru : Rule σ A C E} {c : C} (k : Nat) :
    List.zipWith (ru.el.en c) (List.replicate k ru.idle) (List.replicate k 0) = List.replicate k ru.idle := by
  induction k with
  | zero => rfl
  | succ k ih => simp [List.replicate_succ, ih, ru.idle_n]

theorem zip_idle_w {ru : Rule σ A C E} {c : C} : ∀ D : List ℝ,
    zip3 (ru.el.ew c) D (List.replicate D.length ru.idle) (List.replicate D.length 0) = D
  | [] => rfl
  | d :: D => by
    have := zip_idle_w (ru := ru) (c := c) D
    simp only [zip3] at this ⊢
    simp only [List.length_cons, List.replicate_succ, List.zip_cons_cons, List.zipWith_cons_cons, ru.idle_w, this]

/-- The update of the data, seen from the layer object. -/
theorem putData_parts {ru : Rule σ A C E} {look look' : String → Option A} {key : String → String} {c : C} {l : Cpu} {mode : Bool} {S : List E}
    (hf : l.ParamsFit) (h : Parts ru look key l.sizes (fullState ru l S))
    (hl : ∀ n p, (n, p) ∈ (tensorsOf mode l).params → ∀ a, look (key n) = some a → look' (key n) = some (ru.N c a p))
    {F : String → Buf → Buf} (hF : ∀ n p, (n, p) ∈ (tensorsOf mode l).params → ∀ a, look (key n) = some a → F n p.data = p.data.put (ru.W c a p)) :
    l.putData F = l.setParams (zip3 (ru.el.ew c) l.params S l.grads) ∧ (l.putData F).sizes = l.sizes ∧
      Parts ru look' key l.sizes (fullState ru (l.putData F) (List.zipWith (ru.el.en c) S l.grads)) := by
  rw [sizes_tensorsOf l mode] at h ⊢
  obtain ⟨h1, h2, h3⟩ := parts_step (c := c) (fun q hq => (mem_fits hf (n := q.1) (p := q.2) hq).2) h fun q hq => hl q.1 q.2 hq
  have two : ∀ {n₁ n₂ : String} {p₁ p₂ : Parameter}, (tensorsOf mode l).params = [(n₁, p₁), (n₂, p₂)] → fullState ru l S = S →
      ∃ w₁ w₂ : List ℝ, F n₁ p₁.data = p₁.data.put w₁ ∧ F n₂ p₂.data = p₂.data.put w₂ ∧ w₁.length = p₁.data.vals.length ∧
        w₂.length = p₂.data.vals.length ∧
        zip3 (ru.el.ew c) (p₁.data.vals ++ p₂.data.vals) S (p₁.grad.vals ++ p₂.grad.vals) = w₁ ++ w₂ ∧
        gradsOf (tensorsOf mode l).params = p₁.grad.vals ++ p₂.grad.vals := by
    intro n₁ n₂ p₁ p₂ e1 e2
    have m1 : (n₁, p₁) ∈ (tensorsOf mode l).params := by rw [e1]; simp
    have m2 : (n₂, p₂) ∈ (tensorsOf mode l).params := by rw [e1]; simp
    obtain ⟨a₁, q1, -, q2⟩ := h3 _ m1
    obtain ⟨a₂, q3, -, q4⟩ := h3 _ m2
    refine ⟨_, _, hF _ _ m1 _ q1, hF _ _ m2 _ q3, q2, q4, ?_, by simp [gradsOf, e1]⟩
    rw [e2, e1] at h2
    simp only [List.flatMap_cons, List.flatMap_nil, List.append_nil, datasOf, gradsOf] at h2
    rw [← h2]
    simp only at q1 q3
    rw [q1, q3]
    rfl
  cases l with
  | linear st =>
    obtain ⟨w₁, w₂, f1, f2, l1, l2, hz, hg⟩ := two rfl rfl
    rw [hg] at h1
    simp only [Cpu.putData, Cpu.setParams, Cpu.params, Cpu.grads, hz, f1, f2]
    refine ⟨?_, by simp [Cpu.sizes, sizesOf, tensorsOf, Buf.put, l1, l2], h1⟩
    rw [List.take_left' l1, List.drop_left' l1]
  | convolution st =>
    obtain ⟨w₁, w₂, f1, f2, l1, l2, hz, hg⟩ := two rfl rfl
    rw [hg] at h1
    simp only [Cpu.putData, Cpu.setParams, Cpu.params, Cpu.grads, hz, f1, f2]
    refine ⟨?_, by simp [Cpu.sizes, sizesOf, tensorsOf, Buf.put, l1, l2], h1⟩
    rw [List.take_left' l1, List.drop_left' l1]
  | batchNorm1D st =>
    obtain ⟨w₁, w₂, f1, f2, l1, l2, hz, hg⟩ := two rfl rfl
    rw [hg] at h1
    simp only [Cpu.putData, Cpu.setParams, Cpu.params, Cpu.grads, hz, f1, f2]
    refine ⟨?_, by simp [Cpu.sizes, sizesOf, tensorsOf, Buf.put, l1, l2], h1⟩
    rw [List.take_left' l1, List.drop_left' l1]
  | batchNorm2D st =>
    obtain ⟨w₁, w₂, f1, f2, l1, l2, hz, hg⟩ := two rfl rfl
    rw [hg] at h1
    simp only [Cpu.putData, Cpu.setParams, Cpu.params, Cpu.grads, hz, f1, f2]
    refine ⟨?_, by simp [Cpu.sizes, sizesOf, tensorsOf, Buf.put, l1, l2], h1⟩
    rw [List.take_left' l1, List.drop_left' l1]
  | dropout st =>
    have m1 : ("mask", (⟨st.mask, ⟨st.mask.shape, List.replicate st.mask.vals.length 0⟩, mode⟩ : Parameter)) ∈ (tensorsOf mode (.dropout st)).params := by
      simp [tensorsOf]
    obtain ⟨a, q1, -, q2⟩ := h3 _ m1
    have hfm := hF _ _ m1 a q1
    simp only at q1 hfm
    have hw : ru.W c a ⟨st.mask, ⟨st.mask.shape, List.replicate st.mask.vals.length 0⟩, mode⟩ = st.mask.vals := by
      have h2' := h2
      simp only [tensorsOf, List.flatMap_cons, List.flatMap_nil, List.append_nil, datasOf, gradsOf, fullState, q1] at h2'
      rw [zip_idle_w] at h2'
      exact h2'
    rw [hw] at hfm
    have hfm' : F "mask" st.mask = st.mask := hfm
    simp only [Cpu.putData, Cpu.setParams, hfm', true_and]
    refine ⟨rfl, ?_⟩
    have h1' := h1
    simp only [tensorsOf, gradsOf, List.flatMap_cons, List.flatMap_nil, List.append_nil, fullState, zip_idle_n] at h1'
    exact h1'
  | _ => exact ⟨rfl, rfl, h1⟩

/-! ### All layers of a model -/

/-- The key of a parameter in `params()`. -/
def keyOf (m : Model) (i : Nat) (n : String) : String := ((m.params.find? fun p => p.2 == (i, n)).map Prod.fst).getD ""

variable {topo : Graph → List Node} {e : Expr} {ins outs : List Nat} {m : Model} {real : F32 → ℝ} {tensors : Nat → InfoTensors}
  {L : Layers e} {θ₀ : L.Params}

theorem keyOf_mem (B : Built topo e ins outs m real tensors L θ₀) {k : String} {i : Nat} {n : String} (h : (k, i, n) ∈ m.params) :
    keyOf m i n = k := by
  obtain ⟨e', hctor⟩ := B.ctor
  unfold keyOf
  cases hf : m.params.find? fun p => p.2 == (i, n) with
  | none => simpa using List.find?_eq_none.1 hf _ h
  | some q =>
    obtain ⟨k', i', n'⟩ := q
    have h1 := List.mem_of_find?_eq_some hf
    have h2 := List.find?_some hf
    simp only [beq_iff_eq, Prod.mk.injEq] at h2
    obtain ⟨rfl, rfl⟩ := h2
    obtain ⟨_, -, -, -, rfl⟩ := ((Props.GraphP.params_state_exact B.reachable B.sorts hctor).1 _ _ _).1 h1
    obtain ⟨_, -, -, -, rfl⟩ := ((Props.GraphP.params_state_exact B.reachable B.sorts hctor).1 _ _ _).1 h
    rfl

/-- The fields of the optimizer hold the states `S` of the parameters of the layers. -/
def OptState (ru : Rule σ A C E) (e : Expr) (m : Model) (b : Backend) (aux : σ) (S : Nat → List E) : Prop :=
  ∀ x ∈ dataOf m, ∀ c l, e.callOf x = some c → layerAt e m b x = some l →
    Parts ru (ru.V.look aux) (keyOf m (e.callInfo c)) l.sizes (fullState ru l (S x))

section step

variable {θ : L.Params} {last : Option ((Nat → Env) × Vals e)} {w : World} {b : Backend}

/-- The entry of `params()` for a parameter object. -/
theorem paramMap_entry (B : Built topo e ins outs m real tensors L θ₀) (h : History e ins outs m real tensors L θ₀ θ last w)
    (hb : w.backend = some b) (mode : Bool) {c : Nat} (hc : c ∈ sortedOps m.sorted) {l : Cpu}
    (hl : b.layers[(sortedOps m.sorted).idxOf c]? = some l) {n : String} {p : Parameter} (hp : (n, p) ∈ (tensorsOf mode l).params) :
    (keyOf m (e.callInfo c) n, objectNo mode b.layers ((sortedOps m.sorted).idxOf c) n) ∈ paramMap e m mode b.layers := by
  obtain ⟨e', hctor⟩ := B.ctor
  obtain ⟨l', e1, e2, e3⟩ := layer_get B h hb hc
  obtain rfl := Option.some.inj (hl.symm.trans e1)
  have hn : n ∈ paramNames (infoOf e (e.callInfo c)).op := by
    rw [← e3 mode]; exact List.mem_map.2 ⟨_, hp, rfl⟩
  have hmem := ((Props.GraphP.params_state_exact B.reachable B.sorts hctor).1 _ _ n).2
    ⟨_, ((Props.GraphP.model_layers_exact B.reachable B.sorts hctor).2.1 _).1 hc, rfl, hn, rfl⟩
  unfold paramMap
  refine List.mem_map.2 ⟨_, hmem, ?_⟩
  rw [keyOf_mem B hmem]
  simp only
  rw [layerNo B hc]

theorem mem_trainable {mode : Bool} {l : Cpu} {n : String} {p : Parameter} (hp : (n, p) ∈ (tensorsOf mode l).params) :
    p.trainable = mode := by
  cases l <;> simp [tensorsOf] at hp
  case dropout => rw [hp.2]
  all_goals rcases hp with ⟨-, rfl⟩ | ⟨-, rfl⟩ <;> rfl

/-- `step()` of an optimizer on the parameters of a model in training. -/
theorem rule_layers (ru : Rule σ A C E) (B : Built topo e ins outs m real tensors L θ₀)
    (h : History e ins outs m real tensors L θ₀ θ last w) (hb : w.backend = some b) {aux : σ} {S : Nat → List E}
    (hs : OptState ru e m b aux S) :
    ∃ b' aux', optimizerStep ru.step e m true (w, aux) = (.ok (), { w with backend := some b' }, aux') ∧
      ru.V.const aux' = ru.V.const (ru.pre aux) ∧
      (ChangedLayers e m b b' fun x l => l.setParams (zip3 (ru.el.ew (ru.V.const (ru.pre aux))) l.params (S x) l.grads)) ∧
      ∀ G : Nat → List ℝ, (∀ x ∈ dataOf m, ∀ l, layerAt e m b x = some l → l.grads = G x) →
        OptState ru e m b' aux' fun x => List.zipWith (ru.el.en (ru.V.const (ru.pre aux))) (S x) (G x) := by
  set c₀ := ru.V.const (ru.pre aux) with hc₀
  have hok := paramMap_ok B h hb true
  have hfind : ∀ {c : Nat} {l : Cpu}, c ∈ sortedOps m.sorted → b.layers[(sortedOps m.sorted).idxOf c]? = some l →
      ∃ x ∈ dataOf m, e.callOf x = some c ∧ layerAt e m b x = some l ∧ l.ParamsFit := fun {c l} hc hl => by
    obtain ⟨x, hx, hxc⟩ := (plan B).op c hc
    obtain ⟨l', e1, -, e2, -⟩ := (layer_facts B h hb).2 x hx c hxc
    have : layerAt e m b x = some l := by unfold layerAt; rw [hxc]; exact hl
    obtain rfl := Option.some.inj (this.symm.trans e1)
    exact ⟨x, hx, hxc, this, e2⟩
  obtain ⟨s', h1, -, h2, h3, -, -, -⟩ := eachTrainable_spec ru.V ru.body ru.W ru.N _ ru.body_ok (paramMap e m true b.layers)
    ⟨(objects true b.layers).map Prod.snd, ru.pre aux⟩ hok.names hok.ids (fun y hy => by
      obtain ⟨⟨k, i, n⟩, hm, rfl⟩ := List.mem_map.1 hy
      obtain ⟨c, hc, rfl, _, l, p, -, g1, g2, g3, g4⟩ := paramMap_mem B h hb true hm
      refine ⟨p, by simp only; rw [List.getElem?_map, g4]; rfl, fun _ => ?_⟩
      obtain ⟨x, hx, hxc, hlx, hfit⟩ := hfind hc g1
      have hP := hs x hx c l hxc hlx
      rw [sizes_tensorsOf l true] at hP
      obtain ⟨a, u1, u2⟩ := parts_get hP _ g3
      refine ⟨(mem_fits g2 g3).1, a, ?_, ?_, (mem_fits g2 g3).2⟩
      · simp only at u1 ⊢
        rw [ru.pre_look, ← keyOf_mem B hm]
        exact u1
      · rw [(mem_fits g2 g3).2]
        exact u2)
  simp only at h1 h2 h3
  set B' : Backend := { b with layers := b.layers.mapIdx (fun k l =>
    l.putData (fun name old => ((s'.store[objectNo true b.layers k name]?).map fun p => p.data).getD old)) } with hB'
  have hopt : optimizerStep ru.step e m true (w, aux) = (.ok (), { w with backend := some B' }, s'.aux) := by
    unfold optimizerStep
    simp only [hb, ru.step_eq, h1]
    rfl
  -- one layer
  have key : ∀ x ∈ dataOf m, ∀ l, layerAt e m b x = some l → ∃ c l', e.callOf x = some c ∧ layerAt e m B' x = some l' ∧
      l' = l.setParams (zip3 (ru.el.ew c₀) l.params (S x) l.grads) ∧ l'.sizes = l.sizes ∧
      Parts ru (ru.V.look s'.aux) (keyOf m (e.callInfo c)) l.sizes (fullState ru l' (List.zipWith (ru.el.en c₀) (S x) l.grads)) := by
    intro x hx l hl
    cases hc : e.callOf x with
    | none => unfold layerAt at hl; rw [hc] at hl; cases hl
    | some c =>
      obtain ⟨l', e1, -, e2, -⟩ := (layer_facts B h hb).2 x hx c hc
      obtain rfl := Option.some.inj (hl.symm.trans e1)
      have hcs : c ∈ sortedOps m.sorted := ((plan B).make x hx c hc).1
      have hP := hs x hx c l hc hl
      have hl0 := hl
      unfold layerAt at hl
      rw [hc] at hl
      simp only [Option.bind_some] at hl
      have hput : ∀ n p, (n, p) ∈ (tensorsOf true l).params → ∀ a, ru.V.look aux (keyOf m (e.callInfo c) n) = some a →
          s'.store[objectNo true b.layers ((sortedOps m.sorted).idxOf c) n]? = some { p with data := { p.data with vals := ru.W c₀ a p } } ∧
          ru.V.look s'.aux (keyOf m (e.callInfo c) n) = some (ru.N c₀ a p) := fun n p hp a ha => by
        refine h3 _ (paramMap_entry B h hb true hcs hl hp) p a ?_ (mem_trainable hp) ?_
        · rw [List.getElem?_map, objectNo_get hl hp]; rfl
        · rw [ru.pre_look]; exact ha
      obtain ⟨r1, r2, r3⟩ := putData_parts (ru := ru) (c := c₀) (mode := true) (look' := ru.V.look s'.aux) e2 hP
        (fun n p hp a ha => (hput n p hp a ha).2)
        (F := fun name old => ((s'.store[objectNo true b.layers ((sortedOps m.sorted).idxOf c) name]?).map fun p => p.data).getD old)
        (fun n p hp a ha => by rw [(hput n p hp a ha).1]; rfl)
      refine ⟨c, _, rfl, ?_, r1, r2, r3⟩
      unfold layerAt
      rw [hc]
      simp only [Option.bind_some, hB']
      rw [List.getElem?_mapIdx, hl, Option.map_some]
  refine ⟨B', s'.aux, hopt, h2, ⟨rfl, rfl, by simp [hB'], fun x hx l hl => ?_⟩, fun G hG x hx c l' hc hl' => ?_⟩
  · obtain ⟨c, l', -, k1, k2, -⟩ := key x hx l hl
    rw [k1, k2]
  · obtain ⟨l, e1, -⟩ := (layer_facts B h hb).2 x hx c hc
    obtain ⟨c', l'', k0, k1, -, k3, k4⟩ := key x hx l e1
    obtain rfl := Option.some.inj (hc.symm.trans k0)
    obtain rfl := Option.some.inj (hl'.symm.trans k1)
    rw [hG x hx l e1] at k4
    rw [k3]
    exact k4

theorem fullState_sizes {ru : Rule σ A C E} {l l' : Cpu} (h : l.sizes = l'.sizes) (S : List E) : fullState ru l S = fullState ru l' S := by
  cases l <;> cases l' <;> simp [Cpu.sizes, fullState] at h ⊢
  rw [h]

/-- The sizes of the parameters of a layer object stay the same. -/
theorem layer_sizes (B : Built topo e ins outs m real tensors L θ₀) {θ' : L.Params} {last' : Option ((Nat → Env) × Vals e)} {w' : World}
    {b' : Backend} (h : History e ins outs m real tensors L θ₀ θ last w) (hb : w.backend = some b)
    (h' : History e ins outs m real tensors L θ₀ θ' last' w') (hb' : w'.backend = some b') {x c : Nat} (hx : x ∈ dataOf m)
    (hc : e.callOf x = some c) {l l' : Cpu} (hl : layerAt e m b x = some l) (hl' : layerAt e m b' x = some l') : l.sizes = l'.sizes := by
  obtain ⟨R, K, hk, hs⟩ := kit_exists B
  obtain ⟨b₁, hC, h1, -⟩ := live B hk hs h
  obtain rfl : b₁ = b := Option.some.inj (hC.backend.symm.trans hb)
  obtain ⟨b₂, hC', h2, -⟩ := live B hk hs h'
  obtain rfl : b₂ = b' := Option.some.inj (hC'.backend.symm.trans hb')
  obtain ⟨l₁, e1, e2⟩ := h1 x hx (by simp [hc])
  obtain ⟨l₂, e3, e4⟩ := h2 x hx (by simp [hc])
  obtain rfl := Option.some.inj (hl.symm.trans e1)
  obtain rfl := Option.some.inj (hl'.symm.trans e3)
  obtain ⟨z, hz⟩ := (hs.layer x hx c hc).sizes
  rw [hz _ _ e2, hz _ _ e4]

theorem OptState.later {ru : Rule σ A C E} (B : Built topo e ins outs m real tensors L θ₀) {θ' : L.Params}
    {last' : Option ((Nat → Env) × Vals e)} {w' : World} {b' : Backend} (h : History e ins outs m real tensors L θ₀ θ last w)
    (hb : w.backend = some b) (h' : History e ins outs m real tensors L θ₀ θ' last' w') (hb' : w'.backend = some b') {aux aux' : σ}
    {S : Nat → List E} (hs : OptState ru e m b aux S) (ha : ∀ k, ru.V.look aux' k = ru.V.look aux k) : OptState ru e m b' aux' S := by
  intro x hx c l' hc hl'
  obtain ⟨l, e1, -⟩ := (layer_facts B h hb).2 x hx c hc
  have hz := layer_sizes B h hb h' hb' hx hc e1 hl'
  have := hs x hx c l hc e1
  rw [hz, fullState_sizes hz, show ru.V.look aux = ru.V.look aux' from funext fun k => (ha k).symm] at this
  exact this

/-- All entries idle. -/
theorem parts_idle {ru : Rule σ A C E} {look : String → Option A} {key : String → String} : ∀ {z : List (String × Nat)},
    (∀ q ∈ z, ∃ a, look (key q.1) = some a ∧ ru.el.len a q.2 ∧ ∀ i < q.2, ru.el.nth a i = some ru.idle) →
    Parts ru look key z (List.replicate (z.map Prod.snd).sum ru.idle)
  | [], _ => rfl
  | (n, k) :: z, h => by
    obtain ⟨a, h1, h2, h3⟩ := h (n, k) (by simp)
    refine ⟨by simp, ⟨a, h1, h2, fun i hi => ?_⟩, ?_⟩
    · rw [h3 i hi, List.getElem?_replicate, if_pos]
      simp only [List.map_cons, List.sum_cons]
      have hi : i < k := hi
      omega
    · rw [List.drop_replicate]
      simp only [List.map_cons, List.sum_cons, Nat.add_sub_cancel_left]
      exact parts_idle fun q hq => h q (by simp [hq])

theorem fullState_idle {ru : Rule σ A C E} (l : Cpu) :
    fullState ru l (List.replicate l.params.length ru.idle) = List.replicate (l.sizes.map Prod.snd).sum ru.idle := by
  cases l <;> simp [fullState, Cpu.sizes, Cpu.params]

/-- An optimizer whose tables hold zeros for all parameters. -/
theorem OptState.fresh {ru : Rule σ A C E} (B : Built topo e ins outs m real tensors L θ₀)
    (h : History e ins outs m real tensors L θ₀ θ last w) (hb : w.backend = some b) {aux : σ}
    (ha : ∀ q ∈ paramMap e m true b.layers, ∀ p, ((objects true b.layers).map Prod.snd)[q.2]? = some p →
      ∃ a, ru.V.look aux q.1 = some a ∧ ru.el.len a p.data.vals.length ∧ ∀ i < p.data.vals.length, ru.el.nth a i = some ru.idle) :
    OptState ru e m b aux fun x => List.ofFn fun _ : Fin (L.params x) => ru.idle := by
  intro x hx c l hc hl
  obtain ⟨l', e1, e2, -⟩ := (layer_facts B h hb).2 x hx c hc
  obtain rfl := Option.some.inj (hl.symm.trans e1)
  have hlen : L.params x = l.params.length := by rw [e2]; simp
  have hrep : (List.ofFn fun _ : Fin (L.params x) => ru.idle) = List.replicate l.params.length ru.idle := by
    rw [List.ofFn_const, hlen]
  simp only [hrep]
  rw [fullState_idle]
  refine parts_idle fun q hq => ?_
  rw [sizes_tensorsOf l true] at hq
  obtain ⟨⟨n, p⟩, hp, rfl⟩ := List.mem_map.1 hq
  unfold layerAt at hl
  rw [hc] at hl
  simp only [Option.bind_some] at hl
  refine ha _ (paramMap_entry B h hb true ((plan B).make x hx c hc).1 hl hp) p ?_
  simp only
  rw [List.getElem?_map, objectNo_get hl hp]
  rfl

end step

/-! ### The three optimizers -/

def sgdRule : Rule ℝ Unit ℝ Unit where
  V := sgdView
  body := sgdBody
  W := fun c _ p => List.zipWith (fun w g => w - c * g) p.data.vals p.grad.vals
  N := fun _ a _ => a
  el := sgdEl
  pre := id
  step := sgdStep
  idle := ()
  body_ok := fun name p s a h hg => sgd_body name p s a h hg.2
  step_eq := fun _ _ => rfl
  pre_look := fun _ _ => rfl
  idle_w := fun c w => by simp [sgdEl]
  idle_n := fun _ => rfl

def momentumRule : Rule Momentum (List ℝ) (ℝ × ℝ) ℝ where
  V := momentumView
  body := momentumBody
  W := fun c v p => List.zipWith (fun w v => w - v) p.data.vals (nextVel c v p)
  N := nextVel
  el := momentumEl
  pre := id
  step := momentumStep
  idle := 0
  body_ok := fun name p s a h hg => momentum_body name p s a h hg
  step_eq := fun _ _ => rfl
  pre_look := fun _ _ => rfl
  idle_w := fun c w => by simp [momentumEl]
  idle_n := fun c => by simp [momentumEl]

def adamRule : Rule Adam (List ℝ × List ℝ) (ℝ × ℝ × ℝ × ℝ × Nat) (ℝ × ℝ) where
  V := adamView
  body := adamBody
  W := adamW
  N := fun c a p => (nextMean c a.1 p, nextVar c a.2 p)
  el := adamEl
  pre := fun s => { s with t := s.t + 1 }
  step := adamStep
  idle := (0, 0)
  body_ok := fun name p s a h hg => adam_body name p s a h ⟨hg.1.1, hg.1.2, hg.2⟩
  step_eq := fun _ _ => rfl
  pre_look := fun _ _ => rfl
  idle_w := fun c w => by simp [adamEl]
  idle_n := fun c => by simp [adamEl]

end

end DW.TrainL
