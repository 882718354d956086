import Verif.Props.BackendRefute
/-!
# Windows that make no sense (C79)

A `Convolution` or `MaxPooling` with an empty kernel, a negative padding or a stride that is not positive.
-/

set_option autoImplicit false

namespace DW.Props.GeometryP

open DW DW.Spec DW.GraphL DW.BackendL DW.Props.BackendP DW.Props.GraphP

noncomputable section

/-- Kernel, padding and stride given by the user. -/
def windowOf : Op → Option ((Int × Int) × (Int × Int) × (Int × Int))
  | .maxPooling k p s => some (k, p, s)
  | .convolution _ k p s => some (k, p, s)
  | _ => none

/-- The kernel covers something, padding is not negative and windows move forward. -/
def Usable (k p s : Int × Int) : Prop := (0 < k.1 ∧ 0 < k.2) ∧ (0 ≤ p.1 ∧ 0 ≤ p.2) ∧ 0 < s.1 ∧ 0 < s.2

/-- The layer has a window that makes no sense. -/
def Unusable (op : Op) : Prop := ∃ k p s, windowOf op = some (k, p, s) ∧ ¬ Usable k p s

/-! ### One layer -/

/-- The settings a layer object holds. -/
def geoOf : Cpu → Option Geo
  | .maxPooling st => some st.geo
  | .convolution st => some st.geo
  | _ => none

/-- The checks fail on these settings. -/
def BadGeo (g : Geo) : Prop := ¬ Usable (g.kh, g.kw) (g.ph, g.pw) (g.sh, g.sw)

theorem validate_throws {g : Geo} (h : BadGeo g) : g.validate = .throw .dw := by
  unfold Geo.validate
  by_cases h1 : 0 < g.kh ∧ 0 < g.kw
  · by_cases h2 : 0 ≤ g.ph ∧ 0 ≤ g.pw
    · have h3 : ¬ (0 < g.sh ∧ 0 < g.sw) := fun h3 => h ⟨h1, h2, h3⟩
      simp [Out.check, h1, h2, h3]
    · simp [Out.check, h1, h2]
  · simp [Out.check, h1]

theorem forward_throws {l : Cpu} {g : Geo} (hl : geoOf l = some g) (h : BadGeo g) (env : Env) (ins outs : List Buf) :
    l.forward env ins outs = .throw .dw := by
  cases l <;> simp only [geoOf, Option.some.injEq, reduceCtorEq] at hl <;> subst hl
  · simp [Cpu.forward, PoolSt.forward, validate_throws h]
  · simp [Cpu.forward, ConvSt.forward, validate_throws h]

/-- What the constructor makes of a layer with such a window throws at every `forward`, whatever the tensors. -/
theorem layer_throws {op : Op} (h : Unusable op) {real : F32 → ℝ} {t : InfoTensors} {l : Cpu} (hl : Cpu.create real op t = .ok l)
    (env : Env) (ins outs : List Buf) : ∃ g, geoOf l = some g ∧ BadGeo g ∧ l.forward env ins outs = .throw .dw := by
  obtain ⟨k, p, s, hw, h⟩ := h
  have hb : BadGeo ⟨k.1, k.2, p.1, p.2, s.1, s.2⟩ := h
  cases op <;> simp only [windowOf, Option.some.injEq, Prod.mk.injEq, reduceCtorEq] at hw
  all_goals obtain ⟨rfl, rfl, rfl⟩ := hw
  · obtain rfl := Out.ok.inj hl
    exact ⟨_, rfl, hb, forward_throws rfl hb _ _ _⟩
  · obtain ⟨w, -, hl⟩ := Out.bind_eq_ok.1 hl
    obtain ⟨b, -, hl⟩ := Out.bind_eq_ok.1 hl
    obtain rfl := Out.ok.inj hl
    exact ⟨_, rfl, hb, forward_throws rfl hb _ _ _⟩

/-! ### A model -/

/-- The settings of all layer objects. -/
def geos (w : World) : Option (List (Option Geo)) := w.backend.map fun b => b.layers.map geoOf

/-- However it ends, the settings stay. -/
def Keeps (a : M World Unit) : Prop := ∀ w, geos (a w).2 = geos w

theorem keeps_pure : Keeps (pure ()) := fun _ => rfl

theorem keeps_bind {a b : M World Unit} (ha : Keeps a) (hb : Keeps b) : Keeps (a >>= fun _ => b) := fun w => by
  show geos (M.bind a (fun _ => b) w).2 = _
  have h := ha w
  unfold M.bind
  rcases e : a w with ⟨_ | _ | _, w'⟩ <;> rw [e] at h
  · exact (hb w').trans h
  · exact h
  · exact h

theorem keeps_runAll : ∀ {as : List (M World Unit)}, (∀ a ∈ as, Keeps a) → Keeps (runAll as)
  | [], _ => keeps_pure
  | _ :: _, h => keeps_bind (h _ (by simp)) (keeps_runAll fun b hb => h b (by simp [hb]))

theorem keeps_rebind {f : Backend → Out Backend} (h : ∀ b b', f b = .ok b' → b'.layers = b.layers) : Keeps (rebind f) := fun w => by
  unfold rebind
  split
  · rfl
  · rename_i b hb
    split
    · rfl
    · rfl
    · rename_i b' hb'
      show some (b'.layers.map geoOf) = w.backend.map fun b => b.layers.map geoOf
      rw [hb, h _ _ hb']
      rfl

theorem keeps_zeroGrad (id : Nat) : Keeps (zeroGrad id) := fun w => by
  unfold zeroGrad
  split
  · rfl
  · split
    · rfl
    · split <;> rfl

theorem keeps_need : Keeps needBackend := fun w => by
  unfold needBackend
  split <;> rfl

theorem keeps_onLayer {k : Nat} {f : World → Cpu → List Buf → Out (Cpu × List Buf)}
    (h : ∀ w l s l' s', f w l s = .ok (l', s') → geoOf l' = geoOf l) : Keeps (do let w ← M.get; onLayer k (f w)) := fun w => by
  show geos (onLayer k (f w) w).2 = _
  unfold onLayer
  split
  · rfl
  · rename_i b hb
    split
    · rfl
    · rename_i l hl
      split
      · rfl
      · rfl
      · rename_i l' s' he
        show some ((b.layers.set k l').map geoOf) = w.backend.map fun b => b.layers.map geoOf
        rw [hb, List.map_set, h _ _ _ _ _ he]
        refine congrArg some (List.ext_getElem? fun j => ?_)
        rw [List.getElem?_set, List.getElem?_map]
        split
        · rename_i hj
          subst hj
          obtain ⟨hk, h2⟩ := List.getElem?_eq_some_iff.1 hl
          rw [hl, if_pos (by simpa using hk)]
          rfl
        · rfl

theorem forward_keeps {env : Env} {l l' : Cpu} {ins outs : List Buf} {v : List ℝ} (h : l.forward env ins outs = .ok (l', v)) :
    geoOf l' = geoOf l := by
  cases l <;> simp only [Cpu.forward, Out.bind_eq_ok, Out.ok.injEq, Prod.mk.injEq] at h
  case maxPooling st =>
    obtain ⟨r, hr, rfl, -⟩ := h
    simp only [PoolSt.forward, Out.bind_eq_ok, Out.ok.injEq] at hr
    obtain ⟨-, -, -, -, -, -, -, -, -, -, -, -, -, -, -, -, rfl⟩ := hr
    rfl
  case convolution st =>
    obtain ⟨r, hr, rfl, -⟩ := h
    simp only [ConvSt.forward, Out.bind_eq_ok, Out.ok.injEq] at hr
    obtain ⟨-, -, -, -, -, -, -, -, -, -, -, -, -, -, -, -, -, -, rfl⟩ := hr
    rfl
  all_goals
    first
    | (obtain ⟨-, -, rfl, -⟩ := h; rfl)
    | (obtain ⟨-, -, -, -, -, -, rfl, -⟩ := h; rfl)

theorem grads_keep {l l' : Cpu} {ins gos : List Buf} (h : l.updateGradients ins gos = .ok l') : geoOf l' = geoOf l := by
  cases l <;> simp only [Cpu.updateGradients, Out.bind_eq_ok, Out.ok.injEq] at h
  case convolution st =>
    obtain ⟨_, -, r, hr, rfl⟩ := h
    simp only [ConvSt.updateGradients, Out.bind_eq_ok, Out.ok.injEq] at hr
    obtain ⟨-, -, -, -, -, -, rfl⟩ := hr
    rfl
  all_goals
    first
    | (subst h; rfl)
    | (obtain ⟨_, -, _, -, rfl⟩ := h; rfl)
    | (obtain ⟨_, -, _, -, _, -, rfl⟩ := h; rfl)

theorem writeFront_keeps {gis : List Nat} {store : List Buf} {f : Buf → Out (Cpu × List ℝ)} {l : Cpu} {r : Cpu × List Buf}
    (h : Cpu.writeFront gis store f = .ok r) (hf : ∀ b r, f b = .ok r → geoOf r.1 = geoOf l) : geoOf r.1 = geoOf l := by
  simp only [Cpu.writeFront, Out.bind_eq_ok, Out.ok.injEq] at h
  obtain ⟨_, -, b, -, r', hr', rfl⟩ := h
  exact hf b r' hr'

theorem backward_keeps {env : Env} {l l' : Cpu} {ins outs gos : List Buf} {gis : List Nat} {store s' : List Buf}
    (h : l.backward env ins outs gos gis store = .ok (l', s')) : geoOf l' = geoOf l := by
  cases l
  case add =>
    simp only [Cpu.backward, Out.bind_eq_ok, Out.ok.injEq, Prod.mk.injEq] at h
    obtain ⟨-, -, rfl, -⟩ := h
    rfl
  case maxPooling st =>
    refine writeFront_keeps h fun b r hr => ?_
    simp only [PoolSt.backward, Out.bind_eq_ok, Out.ok.injEq] at hr
    obtain ⟨_, -, _, ⟨-, -, -, -, rfl⟩, rfl⟩ := hr
    rfl
  all_goals
    refine writeFront_keeps h fun b r hr => ?_
    simp only [Out.bind_eq_ok, Out.ok.injEq] at hr
    first
    | (obtain ⟨_, -, _, -, _, -, rfl⟩ := hr; rfl)
    | (obtain ⟨_, -, _, -, rfl⟩ := hr; rfl)

theorem forwardOp_keeps {env : Env} {i o mem : List Nat} {l l' : Cpu} {s s' : List Buf}
    (h : forwardOp env i o mem l s = .ok (l', s')) : geoOf l' = geoOf l := by
  simp only [forwardOp, Out.bind_eq_ok] at h
  obtain ⟨⟨_, _⟩, -, ⟨oh, outs⟩, -, ⟨l₁, v⟩, hl, h⟩ := h
  rw [← forward_keeps hl]
  dsimp only at h
  split at h
  · split at h
    · cases h
    · cases h
      rfl
  · cases h

theorem backwardOp_keeps {env : Env} {i o mem grad : List Nat} {l l' : Cpu} {s s' : List Buf}
    (h : backwardOp env i o mem grad l s = .ok (l', s')) : geoOf l' = geoOf l := by
  simp only [backwardOp, Out.bind_eq_ok] at h
  obtain ⟨⟨_, _⟩, -, ⟨_, _⟩, -, ⟨_, _⟩, -, ⟨_, _⟩, -, l₁, hl, h⟩ := h
  rw [← grads_keep hl]
  dsimp only at h
  split at h
  · cases h
  · exact backward_keeps h

theorem bind_layers {f : Backend → Out (List Nat)} {g : Backend → List Nat → Backend} (hg : ∀ b x, (g b x).layers = b.layers) (b b' : Backend)
    (h : (do .ok (g b (← f b)) : Out Backend) = .ok b') : b'.layers = b.layers := by
  obtain ⟨_, -, h⟩ := Out.bind_eq_ok.1 h
  cases h
  exact hg _ _

theorem model_forward_keeps (m : Model) (env : Nat → Env) (it ot : List Nat) : Keeps (m.forward env it ot) := by
  unfold Model.forward
  refine keeps_bind keeps_need (keeps_bind (keeps_rebind (bind_layers (g := fun b x => { b with mem := x }) fun _ _ => rfl))
    (keeps_bind (keeps_rebind (bind_layers (g := fun b x => { b with mem := x }) fun _ _ => rfl)) (keeps_runAll fun a ha => ?_)))
  obtain ⟨p, -, rfl⟩ := List.mem_map.1 ha
  exact keeps_onLayer fun w l s l' s' h => forwardOp_keeps h

theorem model_backward_keeps (m : Model) (env : Nat → Env) (it ot gt : List Nat) : Keeps (m.backward env it ot gt) := by
  unfold Model.backward
  refine keeps_bind keeps_need (keeps_bind (keeps_runAll fun a ha => ?_)
    (keeps_bind (keeps_rebind (bind_layers (g := fun b x => { b with mem := x }) fun _ _ => rfl))
    (keeps_bind (keeps_rebind (bind_layers (g := fun b x => { b with mem := x }) fun _ _ => rfl))
    (keeps_bind (keeps_rebind (bind_layers (g := fun b x => { b with grad := x }) fun _ _ => rfl)) (keeps_runAll fun a ha => ?_)))))
  · obtain ⟨x, -, rfl⟩ := List.mem_map.1 ha
    exact keeps_zeroGrad _
  · obtain ⟨p, -, rfl⟩ := List.mem_map.1 ha
    exact keeps_onLayer fun w l s l' s' h => backwardOp_keeps h

/-- Calls of `forward` and `backward` on a compiled model, with any arguments and however they end. -/
inductive Calls (m : Model) (w₀ : World) : World → Prop
  | start : Calls m w₀ w₀
  | forward {w} (env : Nat → Env) (it ot : List Nat) : Calls m w₀ w → Calls m w₀ (m.forward env it ot w).2
  | backward {w} (env : Nat → Env) (it ot gt : List Nat) : Calls m w₀ w → Calls m w₀ (m.backward env it ot gt w).2
  | caller {w} (store : List Buf) : Calls m w₀ w → Calls m w₀ { w with store := store }

theorem calls_geos {m : Model} {w₀ w : World} (h : Calls m w₀ w) : geos w = geos w₀ := by
  induction h with
  | start => rfl
  | forward env it ot _ ih => exact (model_forward_keeps m env it ot _).trans ih
  | backward env it ot gt _ ih => exact (model_backward_keeps m env it ot gt _).trans ih
  | caller _ _ ih => exact ih

theorem bind_ok_inv {a b : M World Unit} {w : World} (h : ((a >>= fun _ => b) w).1 = .ok ()) :
    (a w).1 = .ok () ∧ (b (a w).2).1 = .ok () := by
  have h : (M.bind a (fun _ => b) w).1 = .ok () := h
  unfold M.bind at h
  rcases ha : a w with ⟨_ | _ | _, w'⟩ <;> rw [ha] at h
  · exact ⟨rfl, h⟩
  · cases h
  · cases h

theorem runAll_ok : ∀ {as : List (M World Unit)} {w : World}, (∀ a ∈ as, Keeps a) → (runAll as w).1 = .ok () →
    ∀ a ∈ as, ∃ w', geos w' = geos w ∧ (a w').1 = .ok ()
  | [], _, _, _, a, ha => absurd ha List.not_mem_nil
  | b :: bs, w, hk, h, a, ha => by
    obtain ⟨h1, h2⟩ := bind_ok_inv (b := runAll bs) h
    rcases List.mem_cons.1 ha with rfl | ha
    · exact ⟨w, rfl, h1⟩
    · obtain ⟨w', e1, e2⟩ := runAll_ok (fun c hc => hk c (by simp [hc])) h2 a ha
      exact ⟨w', e1.trans (hk b (by simp) w), e2⟩

theorem mapM_get {α β : Type} {f : α → Out β} : ∀ {l : List α} {r : List β}, l.mapM f = .ok r → ∀ {k : Nat} {a : α}, l[k]? = some a →
    ∃ b, f a = .ok b ∧ r[k]? = some b
  | [], _, _, k, a, ha => by simp at ha
  | x :: l, r, h, k, a, ha => by
    rw [List.mapM_cons] at h
    obtain ⟨y, h1, h⟩ := Out.bind_eq_ok.1 h
    obtain ⟨ys, h2, h⟩ := Out.bind_eq_ok.1 h
    cases h
    rcases k with _ | k
    · cases ha
      exact ⟨y, h1, rfl⟩
    · exact mapM_get h2 ha

/-- **C79 (proved part).** A model with such a layer never computes anything: no `forward` after `compile` returns normally, whatever calls were made in
between and whatever tensors are passed. Missing: with a stride of zero already the application is undefined
(`zero_stride_undefined`). -/
theorem unusable_never_runs_partial {m : Model} {e : Expr} {real : F32 → ℝ} {junk : Nat → ℝ} {tensors : Nat → InfoTensors} {w₀ w₁ w : World}
    (hc : m.compile e real junk tensors w₀ = (.ok (), w₁)) (hw : Calls m w₁ w) {c : Nat} (hm : c ∈ sortedOps m.sorted)
    (hop : Unusable (infoOf e (e.callInfo c)).op) (env : Nat → Env) (it ot : List Nat) : (m.forward env it ot w).1 ≠ .ok () := by
  intro hf
  obtain ⟨k, hk⟩ := List.getElem?_of_mem hm
  -- the object made for this layer
  obtain ⟨g, hg, hb⟩ : ∃ g, (geos w₁).bind (fun l => l[k]?) = some (some g) ∧ BadGeo g := by
    unfold Model.compile at hc
    dsimp only at hc
    split at hc
    · cases hc
    · cases hc
    · rename_i data layers hr
      cases hc
      obtain ⟨_, -, hr⟩ := Out.bind_eq_ok.1 hr
      obtain ⟨ls, hls, hr⟩ := Out.bind_eq_ok.1 hr
      cases hr
      have := mapM_get hls hk
      obtain ⟨l, e1, e2⟩ := this
      obtain ⟨g, e3, e4, -⟩ := layer_throws hop e1 ⟨fun _ => 0, fun _ => 0, fun _ => 0⟩ [] []
      refine ⟨g, ?_, e4⟩
      show (List.map geoOf layers)[k]? = _
      rw [List.getElem?_map, e2, ← e3]
      rfl
  rw [← calls_geos hw] at hg
  unfold Model.forward at hf
  obtain ⟨-, hf⟩ := bind_ok_inv hf
  have k1 := keeps_rebind (f := fun b => do .ok { b with mem := ← bind it (idsOf m m.graph.ins) 0 b.mem })
    (bind_layers (g := fun b x => { b with mem := x }) fun _ _ => rfl)
  have k2 := keeps_rebind (f := fun b => do .ok { b with mem := ← bind ot (idsOf m m.graph.outs) 0 b.mem })
    (bind_layers (g := fun b x => { b with mem := x }) fun _ _ => rfl)
  rw [← keeps_need w] at hg
  obtain ⟨-, hf⟩ := bind_ok_inv hf
  rw [← k1] at hg
  obtain ⟨-, hf⟩ := bind_ok_inv hf
  rw [← k2] at hg
  obtain ⟨w', h1, h2⟩ := runAll_ok (fun a ha => by
    obtain ⟨p, -, rfl⟩ := List.mem_map.1 ha
    exact keeps_onLayer fun w l s l' s' h => forwardOp_keeps h) hf _
    (List.mem_map_of_mem ((List.mem_zipIdx_iff_getElem? (x := (c, k))).2 hk))
  rw [← h1] at hg
  have h2 : (onLayer k (forwardOp (env c) (inIds m.graph m.sorted c) (outIds m.graph m.sorted c)
      ((w'.backend.map Backend.mem).getD [])) w').1 = .ok () := h2
  unfold geos at hg
  unfold onLayer at h2
  rcases hb' : w'.backend with _ | b
  · rw [hb'] at h2; cases h2
  rw [hb'] at hg
  have hg : (List.map geoOf b.layers)[k]? = some (some g) := hg
  rw [List.getElem?_map, Option.map_eq_some_iff] at hg
  obtain ⟨l, e1, e2⟩ := hg
  simp only [hb', e1] at h2
  split at h2
  · cases h2
  · cases h2
  · rename_i l' s' he
    simp only [forwardOp, Out.bind_eq_ok] at he
    obtain ⟨_, -, _, -, _, hl, -⟩ := he
    rw [forward_throws e2 hb] at hl
    cases hl

/-! ### Applying such a layer -/

/-- **C79 (full claim).** Applying a layer with such a window to an image throws or gives a placeholder, never anything else. -/
def ApplicationDefined : Prop :=
  ∀ e, Reachable e → ∀ i x, Unusable (infoOf e i).op → (∃ s, e.phs[x]? = some s ∧ s.shape.length = 4) → i < e.infos.length →
    ∀ u, (Expr.apply i [x] e).1 ≠ .ub u

/-- An image and a pooling layer with stride zero. -/
def still : Expr := (do let _ ← Expr.placeholder [1, 1, 4, 4]; Expr.layer (.maxPooling (2, 2) (0, 0) (0, 1)) "pool" : M Expr Nat) {} |>.2

/-- A stride of zero is divided by when the layer is applied, before any check. -/
theorem zero_stride_undefined : ¬ ApplicationDefined := fun h => by
  refine h still (reachable_bind (.placeholder _ .empty) fun _ _ _ h => .layer _ _ h) 0 0 ⟨(2, 2), (0, 0), (0, 1), rfl, ?_⟩
    ⟨⟨[1, 1, 4, 4], none⟩, by decide +kernel, rfl⟩ (by decide +kernel) .divZero (by decide +kernel)
  exact fun h => absurd h.2.2.1 (by decide)

/-- The shape of the result is computed exactly if no stride is zero. -/
theorem outShape_window {op : Op} {k p s : Int × Int} (h : windowOf op = some (k, p, s)) {sh : Shape} (hl : sh.length = 4) :
    ((∃ o, outShape op [sh] = .ok o) ↔ s.1 ≠ 0 ∧ s.2 ≠ 0) ∧ (outShape op [sh] = .ub .divZero ↔ s.1 = 0 ∨ s.2 = 0) := by
  obtain ⟨a, b, c, d, rfl⟩ : ∃ a b c d, sh = [a, b, c, d] := by
    match sh, hl with
    | [a, b, c, d], _ => exact ⟨a, b, c, d, rfl⟩
  cases op <;> simp only [windowOf, Option.some.injEq, Prod.mk.injEq, reduceCtorEq] at h
  all_goals
    obtain ⟨rfl, rfl, rfl⟩ := h
    rename_i s
    by_cases h1 : s.1 = 0
    · simp [outShape, windowOut, cdiv, Out.check, Out.idx, h1]
    · by_cases h2 : s.2 = 0 <;> simp [outShape, windowOut, cdiv, Out.check, Out.idx, h1, h2]

/-! ### An example -/

/-- Pooling with a kernel of height zero. -/
def flatE : Expr := (do
  let x ← Expr.placeholder [1, 1, 2, 2]
  Expr.makeLayer "MaxPooling" "" (Op.attrs (.maxPooling (0, 1) (0, 0) (1, 1))) [x] : M Expr Nat) {} |>.2

theorem flatE_eq : flatE =
    { phs := [⟨[1, 1, 2, 2], none⟩, ⟨[1, 1, 3, 2], some 0⟩]
      calls := [⟨0, [0]⟩]
      infos := [⟨"", .maxPooling (0, 1) (0, 0) (1, 1), [], []⟩] } := by
  decide +kernel

/-- It is built and compiled; only running it fails. -/
example : ∃ m w₁, (∃ e', modelCtor (creationOrder flatE) [0] [1] flatE = (.ok m, e')) ∧
    m.compile flatE (fun _ => 1) (fun _ => 0) (fun _ => ⟨[], []⟩) ⟨[], none⟩ = (.ok (), w₁) ∧ sortedOps m.sorted = [0] ∧
    Unusable (infoOf flatE (flatE.callInfo 0)).op := by
  obtain ⟨m, hm, hd⟩ := look (f := fun m => (sortedData m.sorted, sortedOps m.sorted))
    (show observe (modelCtor (creationOrder flatE) [0] [1] flatE) _ = some ([0, 1], [0]) by decide +kernel)
  obtain ⟨hd, hs⟩ := Prod.mk.inj hd
  have hdata : (sortedData m.sorted).mapM (fun x => allocData (fun _ => 0) (m.graph.storage x) (phShape flatE x)) =
      .ok ((dataOf m).map (allocated m flatE (fun _ => 0))) :=
    Out.mapM_eq_ok_of_forall fun y hy => allocData_eq _ fun _ => by
      rw [hd] at hy
      simp only [List.mem_cons, List.not_mem_nil, or_false] at hy
      rcases hy with rfl | rfl <;> rw [flatE_eq]
      · exact ⟨by decide, fun k => by rcases k with _ | _ | _ | _ | _ | k <;> simp [phShape]⟩
      · exact ⟨by decide, fun k => by rcases k with _ | _ | _ | _ | _ | k <;> simp [phShape]⟩
  have hl : (sortedOps m.sorted).mapM (fun c => Cpu.create (fun _ => 1) (infoOf flatE (flatE.callInfo c)).op ⟨[], []⟩) =
      .ok [.maxPooling { geo := ⟨0, 1, 0, 0, 1, 1⟩ }] := by
    rw [hs, flatE_eq]
    rfl
  have hc : (m.compile flatE (fun _ => 1) (fun _ => 0) (fun _ => ⟨[], []⟩) ⟨[], none⟩).1 = .ok () := by
    unfold Model.compile
    simp only [hdata, hl, Out.bind_ok]
  exact ⟨m, _, hm, Prod.ext hc rfl, hs, (0, 1), (0, 0), (1, 1), by rw [flatE_eq]; rfl, fun h => absurd h.1.1 (by decide)⟩

end

end DW.Props.GeometryP
