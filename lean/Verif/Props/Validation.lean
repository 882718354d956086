import Verif.Lemmas.Validation
/-!
# What a validation loop reports (C84)
-/

set_option autoImplicit false

namespace DW.Props.ValidationP

open DW DW.Spec DW.DL DW.DLL DW.ValL DW.HistL DW.NetL DW.BackendL DW.GraphL DW.BatchL DW.Props.BackendP DW.Props.GraphP DW.Props.BatchP
  DW.Props.LoopP DW.Props.TrainP DW.Props.LossP DW.Props.TensorP DW.MatL

noncomputable section

/-! ## `pull` on the tensors of a program with a model -/

/-- `pull` does the same on the tensors here as on those of `Verif.Model.DataLoader`. -/
theorem pullInto_pull {ld : Loader ℝ} (lo : LoaderOk ld) {X Y : Handle} {s : DL ℝ} (inv : Inv ld X Y s) {w : World} {x y : Nat}
    (hne : x ≠ y) (hx : AcceptsBuf w x (ld.batch :: ld.dataset.shapeX)) (hy : AcceptsBuf w y (ld.batch :: ld.dataset.shapeY))
    (junk : Nat → ℝ) (rand : List Int) (hr : ld.shuffle = true → s.pos + ld.batch ≤ ld.dataset.size →
      (rand.length : Int) = ld.batch ∧ ∀ v ∈ rand, 0 ≤ v ∧ v < ld.dataset.size) :
    ∃ (more : Bool) (s' : DL ℝ) (w' : World), pull ld rand X Y s = (.ok more, s') ∧
      pullInto ld junk rand x y (w, s.pos) = (.ok more, w', s'.pos) ∧
      (more = true → ∀ T t : Nat, (T, t) ∈ [(X, x), (Y, y)] → ∃ b : Buf, w'.store[t]? = some b ∧
        (∃ d, s'.heap.descs[T]? = some d ∧ d.shape = b.shape) ∧ ∀ k (hk : k < b.vals.length), elem s'.heap T k = some (some b.vals[k])) ∧
      ∀ t, t ≠ x → t ≠ y → w'.store[t]? = w.store[t]? := by
  obtain ⟨s', h1, -, h2, h3, -⟩ := pull_spec lo inv rand hr
  obtain ⟨w', p1, p2, bx, by', p3, -⟩ := pullInto_spec lo.batch lo.fits junk rand hne hx hy inv.pos0 inv.pos1 hr
  refine ⟨_, s', w', h1, by rw [p1, h2], fun hm => ?_, fun t h4 h5 => ?_⟩
  · have hc := of_decide_eq_true hm
    obtain ⟨i1, i2⟩ := h3 hc
    have hlx := let ⟨b, hb, _⟩ := hx; (List.getElem?_eq_some_iff.1 hb).1
    have hly := let ⟨b, hb, _⟩ := hy; (List.getElem?_eq_some_iff.1 hb).1
    rw [p2 hc]
    have key : ∀ {T : Nat} {sh : Shape} {f : Int → Nat → ℝ}, IsBatch s'.heap T ld.batch sh f (nextIdxs ld rand s.pos) →
        (∃ d, s'.heap.descs[T]? = some d ∧ d.shape = (batchBuf ld.batch sh f (nextIdxs ld rand s.pos)).shape) ∧
        ∀ k (hk : k < (batchBuf ld.batch sh f (nextIdxs ld rand s.pos)).vals.length),
          elem s'.heap T k = some (some (batchBuf ld.batch sh f (nextIdxs ld rand s.pos)).vals[k]) := by
      rintro T sh f ⟨a1, a2, a3⟩
      refine ⟨a1, fun k hk => ?_⟩
      have hk' := hk
      unfold batchBuf at hk
      simp only at hk
      rw [flatMap_length (k := sh.prod.toNat) fun a _ => by simp] at hk
      have hpos : 0 < sh.prod.toNat := Nat.pos_of_ne_zero fun h => by rw [h] at hk; simp at hk
      have hi : k / sh.prod.toNat < (nextIdxs ld rand s.pos).length := by rwa [Nat.div_lt_iff_lt_mul hpos]
      have hj := Nat.mod_lt k hpos
      have hsum : k / sh.prod.toNat * sh.prod.toNat + k % sh.prod.toNat = k := by rw [Nat.mul_comm]; exact Nat.div_add_mod _ _
      have := a3 (k / sh.prod.toNat) hi (k % sh.prod.toNat) (by omega)
      rw [hsum] at this
      rw [this]
      have hp := flatMap_part (k := sh.prod.toNat) (f := fun i => (List.range sh.prod.toNat).map (f i)) hi fun a _ => by simp
      have hg := congrArg (fun l => l[k % sh.prod.toNat]?) hp
      simp only [List.getElem?_take, hj, if_true, List.getElem?_drop, hsum, List.getElem?_map, List.getElem?_range hj, Option.map_some] at hg
      congr 2
      exact (Option.some.inj ((List.getElem?_eq_getElem hk').symm.trans hg)).symm
    intro T t ht
    rcases List.mem_pair.1 ht with e | e <;> cases e
    · exact ⟨_, by unfold putBatch; rw [List.getElem?_set_ne hne.symm, List.getElem?_set_self hlx], key i1⟩
    · exact ⟨_, by unfold putBatch; rw [List.getElem?_set_self (by simpa using hly)], key i2⟩
  · rw [p3, List.getElem?_set_ne (Ne.symm h5), List.getElem?_set_ne (Ne.symm h4)]

/-! ## The predictions -/

variable {topo : Graph → List Node} {e : Expr} {m : Model} {real : F32 → ℝ} {tensors : Nat → InfoTensors}
  {L : Layers e} {θ₀ : L.Params} {N xi yo : Nat}

/-- In evaluation mode, at every state of the parameters, a model with one input and one output makes of each sample one prediction. -/
theorem predicts_exists (B : Built topo e [xi] [yo] m real tensors L θ₀)
    (hf : ∀ x ∈ dataOf m, ∀ c, e.callOf x = some c → Frozen (tensors (e.callInfo c))) (hN : IsBatchOf N (phShape e xi)) (θ : L.Params) :
    ∃ f, Predicts e xi yo m real tensors L θ₀ θ N f := by
  classical
  let R : List ℝ → List ℝ → Prop := fun s o => ∃ (last : Option ((Nat → Env) × Vals e)) (w w' : World) (b : Backend) (env : Nat → Env)
    (h p : Nat) (t t' : Buf) (i : Fin N), History e [xi] [yo] m real tensors L θ₀ θ last w ∧ FwdArgs e m [xi] [yo] w b [h] [p] ∧
    (∀ c, IsPick (env c).pick) ∧ m.forward env [h] [p] w = (.ok (), w') ∧ w.store[h]? = some t ∧ w'.store[p]? = some t' ∧
    sampleOf N i t.vals = s ∧ sampleOf N i t'.vals = o
  have hfun : ∀ s o o', R s o → R s o' → o = o' := by
    rintro s o o' ⟨l1, w1, w1', b1, env1, h1, p1, t1, t1', i1, H1, A1, P1, F1, S1, S1', e1, e1'⟩
      ⟨l2, w2, w2', b2, env2, h2, p2, t2, t2', i2, H2, A2, P2, F2, S2, S2', e2, e2'⟩
    obtain ⟨v1, v2, r1, r2, sm⟩ := eval_by_sample B hf (fun y hy => by rw [List.mem_singleton.1 hy]; exact hN) H1 H2 A1 A2 P1 P2
      (i := i1) (i' := i2) fun k a a' ha ha' => by
        cases k with
        | zero =>
          simp only [List.getElem?_cons_zero, Option.some.injEq] at ha ha'
          subst ha ha'
          exact ⟨_, _, S1, S2, e1.trans e2.symm⟩
        | succ k => simp at ha
    rw [F1] at r1
    rw [F2] at r2
    cases r1
    cases r2
    obtain ⟨c, c', hc, hc', hcc⟩ := sm 0 p1 p2 rfl rfl
    obtain rfl := Option.some.inj (S1'.symm.trans hc)
    obtain rfl := Option.some.inj (S2'.symm.trans hc')
    rw [← e1', ← e2', hcc]
  refine ⟨fun s => if h : ∃ o, R s o then h.choose else [], fun last w w' b env h p t t' H A P F S S' i hi => ?_⟩
  have hR : R (sampleOf N i t.vals) (sampleOf N i t'.vals) := ⟨last, w, w', b, env, h, p, t, t', ⟨i, hi⟩, H, A, P, F, S, S', rfl, rfl⟩
  have hex : ∃ o, R (sampleOf N i t.vals) o := ⟨_, hR⟩
  show _ = if h : ∃ o, R (sampleOf N i t.vals) o then h.choose else []
  rw [dif_pos hex]
  exact hfun _ _ _ hR hex.choose_spec

/-! ## One round -/

theorem hit_list {n : Nat} {l : List ℝ} {r : Fin n → ℝ} (h : l = List.ofFn r) (a : ℝ) : Hit (fun j : Fin l.length => l[j]) a ↔ Hit r a := by
  have hl : l.length = n := by rw [h]; simp
  subst hl
  have : (fun j : Fin l.length => l[j]) = r := by
    funext j
    have := congrArg (fun q => q[j.val]?) h
    simp only [Fin.is_lt, getElem?_pos, List.length_ofFn, List.getElem_ofFn, Option.some.injEq] at this
    exact this
  rw [this]

open Classical in
theorem fraction_count {N a : Nat} {p : Nat → Prop} : fraction (fun i : Fin N => p (a + i)) = ((Nat.count p (a + N) : ℝ) - Nat.count p a) / N := by
  have : (Finset.univ.filter fun i : Fin N => p (a + i)).card = Nat.count (fun k => p (a + k)) N := by
    rw [Nat.count_eq_card_filter_range]
    refine Finset.card_bij (fun i _ => i.val) (fun i hi => ?_) (fun i _ j _ h => Fin.ext h) fun k hk => ?_
    · simpa using hi
    · simp only [Finset.mem_filter, Finset.mem_range] at hk
      exact ⟨⟨k, hk.1⟩, by simpa using hk.2, rfl⟩
  unfold fraction
  rw [Nat.count_add, Nat.cast_add, add_sub_cancel_left]
  congr 2

/-- The tensors a validation loop works on: `x` and `y` for the batches, `p` for the predictions. -/
structure ValArgs (e : Expr) (m : Model) (yo : Nat) (ld : Loader ℝ) (w : World) (b : Backend) (x p y : Nat) : Prop where
  backend : w.backend = some b
  acceptsX : AcceptsBuf w x (ld.batch :: ld.dataset.shapeX)
  acceptsY : AcceptsBuf w y (ld.batch :: ld.dataset.shapeY)
  preds : Given e m w b [yo] [p]
  outsideX : x ∉ privates m b
  outsideY : y ∉ privates m b
  xy : x ≠ y
  px : p ≠ x
  py : p ≠ y


theorem rowMajor_row {N n : Nat} (P : Fin N → Fin n → ℝ) (i : Fin N) : ((rowMajor P).drop (i * n)).take n = List.ofFn (P i) := by
  have hle : i.val * n + n ≤ N * n := by
    calc i.val * n + n = (i.val + 1) * n := by ring
      _ ≤ N * n := Nat.mul_le_mul_right _ i.isLt
  refine List.ext_getElem (by simp; omega) fun j h1 h2 => ?_
  have hj : j < n := by simpa using h2
  rw [List.getElem_take, List.getElem_drop, List.getElem_ofFn]
  exact rowMajor_getElem P i ⟨j, hj⟩ _

theorem getD_single {a b : Nat} {i : Nat} (h : [a][i]? = some b) : b = a := by
  cases i with
  | zero => simpa using h.symm
  | succ i => simp at h

section

variable {ld : Loader ℝ} {f : List ℝ → List ℝ} {n k : Nat} {θ : L.Params} {last : Option ((Nat → Env) × Vals e)} {w : World} {b : Backend}
  {x p y : Nat} {env : Nat → Env}

open Classical in
/-- A round of the loop. -/
theorem round (B : Built topo e [xi] [yo] m real tensors L θ₀) (hp : Predicts e xi yo m real tensors L θ₀ θ N f)
    (hN : ld.batch = N) (hx : phShape e xi = (N : Int) :: ld.dataset.shapeX) (hy : ld.dataset.shapeY.prod = 1)
    (hs : phShape e yo = [(N : Int), n]) (hn : 0 < n) (hsh : ld.shuffle = false) (hfit : (ld.dataset.size : Int) + N ≤ 2147483647)
    (h : History e [xi] [yo] m real tensors L θ₀ θ last w) (ha : ValArgs e m yo ld w b x p y) (hpick : ∀ c, IsPick (env c).pick)
    (junk : Nat → ℝ) (rand : List Int) (hk : k * N + N ≤ ld.dataset.size) :
    ∃ (w₁ w' : World) (b' : Backend) (last' : Option ((Nat → Env) × Vals e)),
      pullInto ld junk rand x y (w, ((k * N : Nat) : Int)) = (.ok true, w₁, (((k + 1) * N : Nat) : Int)) ∧
      m.forward env [x] [p] w₁ = (.ok (), w') ∧
      accuracyOf p y w' = (.ok ((Nat.count (Correct ld.dataset f) ((k + 1) * N) - Nat.count (Correct ld.dataset f) (k * N)) / N), w') ∧
      History e [xi] [yo] m real tensors L θ₀ θ last' w' ∧ ValArgs e m yo ld w' b' x p y ∧ SameOwner m b b' ∧
      Untouched m b w w' [x, p, y] ∧ ∀ i < N, (f (sampleList ld.dataset (k * N + i))).length = n := by
  have hr : ld.shuffle = true → ((k * N : Nat) : Int) + ld.batch ≤ ld.dataset.size →
      (rand.length : Int) = ld.batch ∧ ∀ v ∈ rand, 0 ≤ v ∧ v < ld.dataset.size := fun h => by rw [hsh] at h; cases h
  obtain ⟨w₁, q1, q2, -⟩ := pullInto_spec (by omega) (by omega) junk rand ha.xy ha.acceptsX ha.acceptsY (pos := ((k * N : Nat) : Int))
    (by omega) (by omega) hr
  have hc : ((k * N : Nat) : Int) + ld.batch ≤ ld.dataset.size := by omega
  have q2 := q2 hc
  rw [decide_eq_true hc, if_pos hc] at q1
  set idxs := nextIdxs ld rand ((k * N : Nat) : Int) with hidxs
  have hidx : idxs = (List.range N).map fun i : Nat => ((k * N + i : Nat) : Int) := by
    rw [hidxs, nextIdxs, hsh, hN]
    simp
  have hl : idxs.length = N := by rw [hidx]; simp
  have hget : ∀ i (hi : i < N), idxs[i]'(by omega) = ((k * N + i : Nat) : Int) := fun i hi => by
    have := congrArg (fun l => l[i]?) hidx
    simp only [List.getElem?_map, List.getElem?_range hi, Option.map_some] at this
    exact Option.some.inj ((List.getElem?_eq_getElem (by omega)).symm.trans this)
  have hlx := let ⟨b, hb, _⟩ := ha.acceptsX; (List.getElem?_eq_some_iff.1 hb).1
  have hly := let ⟨b, hb, _⟩ := ha.acceptsY; (List.getElem?_eq_some_iff.1 hb).1
  have sx : w₁.store[x]? = some (batchBuf ld.batch ld.dataset.shapeX ld.dataset.x idxs) := by
    rw [q2]
    unfold putBatch
    rw [List.getElem?_set_ne ha.xy.symm, List.getElem?_set_self hlx]
  have sy : w₁.store[y]? = some (batchBuf ld.batch ld.dataset.shapeY ld.dataset.y idxs) := by
    rw [q2]
    unfold putBatch
    rw [List.getElem?_set_self (by simpa using hly)]
  have so : ∀ a, a ≠ x → a ≠ y → w₁.store[a]? = w.store[a]? := fun a h1 h2 => by
    rw [q2]
    unfold putBatch
    rw [List.getElem?_set_ne (Ne.symm h2), List.getElem?_set_ne (Ne.symm h1)]
  have hb₁ : w₁.backend = some b := by rw [q2]; exact ha.backend
  have hist₁ : History e [xi] [yo] m real tensors L θ₀ θ last w₁ := by
    rw [q2]
    exact .write y _ (.write x _ h ha.backend ha.outsideX) ha.backend ha.outsideY
  have lenx : (batchBuf ld.batch ld.dataset.shapeX ld.dataset.x idxs).vals.length = N * ld.dataset.shapeX.prod.toNat := by
    unfold batchBuf
    simp only
    rw [flatMap_length (k := ld.dataset.shapeX.prod.toNat) fun a _ => by simp, hl]
  have fa : FwdArgs e m [xi] [yo] w₁ b [x] [p] := by
    refine ⟨hb₁, ⟨rfl, fun i z a hz hh => ?_, fun a h => ?_⟩, ⟨rfl, fun i z a hz hh => ?_, ha.preds.outside⟩, by simp, fun a h1 h2 => ?_⟩
    · obtain rfl := getD_single hz
      obtain rfl := getD_single hh
      refine ⟨_, by rw [sx, hx, ← hN]; rfl, ?_⟩
      rw [hx, size_batch]
      exact lenx
    · rw [List.mem_singleton.1 h]
      exact ha.outsideX
    · obtain rfl := getD_single hz
      obtain rfl := getD_single hh
      unfold Room
      rw [so _ ha.px ha.py]
      exact ha.preds.room 0 _ _ rfl rfl
    · exact ha.px ((List.mem_singleton.1 h1).symm.trans (List.mem_singleton.1 h2))
  obtain ⟨v, hv, hcar⟩ := values_of_inputs B fa env θ
  obtain ⟨w', b', r1, r2, r3, r4, r5, r6⟩ := forward_evaluates_partial B hist₁ fa hpick hv hcar
  have hist' : History e [xi] [yo] m real tensors L θ₀ θ (some (env, v)) w' := by
    have := History.forward env [x] [p] v hist₁ fa hpick hv hcar
    rw [r1] at this
    exact this
  have sp : w'.store[p]? = some (predTensor (predOf hs (v yo))) := by
    have := r4 0 yo p rfl rfl
    unfold Holds at this
    rw [this, predOf_holds hs]
  have sy' : w'.store[y]? = some (batchBuf ld.batch ld.dataset.shapeY ld.dataset.y idxs) := by
    rw [r5 y ha.outsideY fun h => ha.py (List.mem_singleton.1 h).symm, sy]
  have sx' : w'.store[x]? = some (batchBuf ld.batch ld.dataset.shapeX ld.dataset.x idxs) := by
    rw [r5 x ha.outsideX fun h => ha.px (List.mem_singleton.1 h).symm, sx]
  have hlab : batchBuf ld.batch ld.dataset.shapeY ld.dataset.y idxs =
      ⟨ld.batch :: ld.dataset.shapeY, List.ofFn fun i : Fin N => ld.dataset.y ((k * N + i.val : Nat) : Int) 0⟩ := by
    unfold batchBuf
    rw [hy, hidx]
    congr 1
    simp only [Int.toNat_one, List.range_one, List.map_cons, List.map_nil, List.flatMap_map]
    rw [← List.map_eq_flatMap]
    exact List.ext_getElem (by simp) fun i h1 h2 => by simp
  have hpred : ∀ i : Fin N, f (sampleList ld.dataset (k * N + i)) = List.ofFn (predOf hs (v yo) i) := fun i => by
    have := hp last w₁ w' b env x p _ _ hist₁ fa hpick r1 sx sp i i.isLt
    rw [sample_batchBuf hl i.isLt, hget i i.isLt] at this
    unfold sampleList
    rw [← this]
    unfold sampleOf predTensor
    simp only
    rw [rowMajor_length, Nat.mul_div_cancel_left _ i.pos]
    exact rowMajor_row _ i
  refine ⟨w₁, w', b', _, ?_, r1, ?_, hist', ⟨r2, ⟨_, sx', .inr rfl⟩, ⟨_, sy', .inr rfl⟩, ⟨rfl, fun i z a hz hh => ?_, ?_⟩, ?_, ?_, ha.xy,
    ha.px, ha.py⟩, r3, fun a h1 h2 => ?_, fun i hi => by rw [hpred ⟨i, hi⟩]; simp⟩
  · rw [q1, hN, Nat.succ_mul]
    simp
  · unfold accuracyOf Out.idx
    rw [sp, sy', hlab]
    simp only [Out.bind_ok]
    rw [accuracy_eq hn, Nat.succ_mul, ← fraction_count]
    congr 3
    funext i
    exact propext (hit_list (hpred i) _).symm
  · obtain rfl := getD_single hz
    obtain rfl := getD_single hh
    exact ⟨_, r4 0 _ _ rfl rfl, by simp⟩
  · intro a h1
    rw [r3]
    exact ha.preds.outside a h1
  · rw [r3]
    exact ha.outsideX
  · rw [r3]
    exact ha.outsideY
  · simp only [List.mem_cons, List.not_mem_nil, or_false, not_or] at h2
    rw [r5 a h1 (by simpa using h2.2.1), so a h2.1 h2.2.2]

open Classical in
theorem rounds (B : Built topo e [xi] [yo] m real tensors L θ₀) (hp : Predicts e xi yo m real tensors L θ₀ θ N f)
    (hN : ld.batch = N) (h0 : 0 < N) (hx : phShape e xi = (N : Int) :: ld.dataset.shapeX) (hy : ld.dataset.shapeY.prod = 1)
    (hs : phShape e yo = [(N : Int), n]) (hn : 0 < n) (hsh : ld.shuffle = false) (hfit : (ld.dataset.size : Int) + N ≤ 2147483647)
    {env : Nat → Nat → Env} (hpick : ∀ k c, IsPick (env k c).pick) (junk : Nat → ℝ) (rands : Nat → List Int) :
    ∀ (d k fuel : Nat) (acc : ℝ) {last : Option ((Nat → Env) × Vals e)} {w : World} {b : Backend}, k + d = ld.dataset.size / N → d < fuel →
    History e [xi] [yo] m real tensors L θ₀ θ last w → ValArgs e m yo ld w b x p y →
    ∃ (w' : World) (b' : Backend) (last' : Option ((Nat → Env) × Vals e)),
      validationLoop m ld junk rands env x p y acc k fuel (w, ((k * N : Nat) : Int)) =
        (.ok (some (acc + (Nat.count (Correct ld.dataset f) ((k + d) * N) - Nat.count (Correct ld.dataset f) (k * N)) / N, k + d)), w', 0) ∧
      History e [xi] [yo] m real tensors L θ₀ θ last' w' ∧ ValArgs e m yo ld w' b' x p y ∧ SameOwner m b b' ∧
      Untouched m b w w' [x, p, y] ∧ ∀ j, k * N ≤ j → j < (k + d) * N → (f (sampleList ld.dataset j)).length = n
  | _, _, 0, _, _, _, _, _, hlt, _, _ => absurd hlt (by omega)
  | 0, k, fuel + 1, acc, last, w, b, hk, _, h, ha => by
    have hend : ¬ (((k * N : Nat) : Int) + ld.batch ≤ ld.dataset.size) := by
      have := Nat.lt_div_mul_add (a := ld.dataset.size) h0
      rw [← hk, Nat.add_zero] at this
      omega
    have hle : k * N ≤ ld.dataset.size := by
      have := Nat.div_mul_le_self ld.dataset.size N
      rwa [← hk, Nat.add_zero] at this
    obtain ⟨w', q1, -, bx, by', q3, q4, q5⟩ := pullInto_spec (by omega) (by omega) junk (rands k) ha.xy ha.acceptsX ha.acceptsY
      (pos := ((k * N : Nat) : Int)) (by omega) (by omega) fun h => by rw [hsh] at h; cases h
    rw [decide_eq_false hend, if_neg hend] at q1
    have hlx := let ⟨b, hb, _⟩ := ha.acceptsX; (List.getElem?_eq_some_iff.1 hb).1
    have hly := let ⟨b, hb, _⟩ := ha.acceptsY; (List.getElem?_eq_some_iff.1 hb).1
    have so : ∀ a, a ≠ x → a ≠ y → w'.store[a]? = w.store[a]? := fun a h1 h2 => by
      rw [q3, List.getElem?_set_ne (Ne.symm h2), List.getElem?_set_ne (Ne.symm h1)]
    refine ⟨w', b, last, ?_, ?_, ⟨by rw [q3]; exact ha.backend, ⟨bx, ?_, .inr q4⟩, ⟨by', ?_, .inr q5⟩, ⟨rfl, fun i z a hz hh => ?_,
      ha.preds.outside⟩, ha.outsideX, ha.outsideY, ha.xy, ha.px, ha.py⟩, rfl, fun a _ h2 => ?_,
      fun j h1 h2 => absurd h2 (by rw [Nat.add_zero]; omega)⟩
    · unfold validationLoop
      rw [M.bind_ok q1]
      simp
    · rw [q3]
      exact .write y _ (.write x _ h ha.backend ha.outsideX) ha.backend ha.outsideY
    · rw [q3, List.getElem?_set_ne ha.xy.symm, List.getElem?_set_self hlx]
    · rw [q3, List.getElem?_set_self (by simpa using hly)]
    · obtain rfl := getD_single hz
      obtain rfl := getD_single hh
      unfold Room
      rw [so _ ha.px ha.py]
      exact ha.preds.room 0 _ _ rfl rfl
    · simp only [List.mem_cons, List.not_mem_nil, or_false, not_or] at h2
      exact so a h2.1 h2.2.2
  | d + 1, k, fuel + 1, acc, last, w, b, hk, hlt, h, ha => by
    have hle : k * N + N ≤ ld.dataset.size := by
      calc k * N + N = (k + 1) * N := by ring
        _ ≤ ld.dataset.size / N * N := Nat.mul_le_mul_right _ (by omega)
        _ ≤ ld.dataset.size := Nat.div_mul_le_self _ _
    obtain ⟨w₁, w₂, b₂, last₂, r1, r2, r3, r4, r5, r6, r7, r8⟩ := round B hp hN hx hy hs hn hsh hfit h ha (hpick k) junk (rands k) hle
    obtain ⟨w', b', last', s1, s2, s3, s4, s5, s6⟩ := rounds B hp hN h0 hx hy hs hn hsh hfit hpick junk rands d (k + 1) fuel
      (acc + (Nat.count (Correct ld.dataset f) ((k + 1) * N) - Nat.count (Correct ld.dataset f) (k * N)) / N) (by omega) (by omega) r4 r5
    refine ⟨w', b', last', ?_, s2, s3, s4.trans r6, fun a h1 h2 => ?_, fun j h1 h2 => ?_⟩
    · unfold validationLoop
      rw [M.bind_ok r1, if_pos rfl, M.bind_ok (onWorld_eq r2 _), M.bind_ok (onWorld_eq r3 _), s1, show k + 1 + d = k + (d + 1) by omega]
      congr 4
      ring
    · rw [s5 a (by rw [r6]; exact h1) h2, r7 a h1 h2]
    · by_cases hj : j < (k + 1) * N
      · rw [Nat.succ_mul] at hj
        have := r8 (j - k * N) (by omega)
        rwa [Nat.add_sub_cancel' h1] at this
      · exact s6 j (by omega) (by rwa [show k + 1 + d = k + (d + 1) by omega])

end

open Classical in
/-- **C84.** In evaluation mode, with batches of the size of the model in the order of the dataset, the validation loop ends after
`size / batch` rounds, and the accuracy it reports, `acc / val_iter`, is the fraction of the samples seen that the model classifies
correctly, where what the model predicts for a sample does not depend on the batch size or the batches. All samples are seen but
the last `size % batch`, each once. The parameters are as before, the loader is back at its start, and no tensor has changed except
those of the loop. -/
theorem validation_accuracy (B : Built topo e [xi] [yo] m real tensors L θ₀)
    (hf : ∀ x ∈ dataOf m, ∀ c, e.callOf x = some c → Frozen (tensors (e.callInfo c))) {ld : Loader ℝ} {n : Nat}
    (hN : ld.batch = N) (h0 : 0 < N) (hx : phShape e xi = (N : Int) :: ld.dataset.shapeX) (hy : ld.dataset.shapeY.prod = 1)
    (hs : phShape e yo = [(N : Int), n]) (hn : 0 < n) (hsh : ld.shuffle = false) (hfit : (ld.dataset.size : Int) + N ≤ 2147483647)
    (hbig : N ≤ ld.dataset.size) {θ : L.Params} {last : Option ((Nat → Env) × Vals e)} {w : World} {b : Backend} {x p y : Nat}
    (h : History e [xi] [yo] m real tensors L θ₀ θ last w) (ha : ValArgs e m yo ld w b x p y)
    {env : Nat → Nat → Env} (hpick : ∀ k c, IsPick (env k c).pick) (junk : Nat → ℝ) (rands : Nat → List Int)
    {fuel : Nat} (hfuel : ld.dataset.size / N < fuel) :
    ∃ (f : List ℝ → List ℝ) (acc : ℝ) (w' : World) (b' : Backend) (last' : Option ((Nat → Env) × Vals e)),
      0 < ld.dataset.size / N ∧ Predicts e xi yo m real tensors L θ₀ θ N f ∧
      validationLoop m ld junk rands env x p y 0 0 fuel (w, 0) = (.ok (some (acc, ld.dataset.size / N)), w', 0) ∧
      acc / (ld.dataset.size / N : Nat) =
        (Nat.count (Correct ld.dataset f) (ld.dataset.size / N * N) : ℝ) / (ld.dataset.size / N * N : Nat) ∧
      History e [xi] [yo] m real tensors L θ₀ θ last' w' ∧ ValArgs e m yo ld w' b' x p y ∧ SameOwner m b b' ∧
      Untouched m b w w' [x, p, y] ∧ ∀ k < ld.dataset.size / N * N, (f (sampleList ld.dataset k)).length = n := by
  obtain ⟨f, hp⟩ := predicts_exists (N := N) B hf ⟨_, hx⟩ θ
  obtain ⟨w', b', last', r1, r2, r3, r4, r5, r6⟩ := rounds B hp hN h0 hx hy hs hn hsh hfit hpick junk rands (ld.dataset.size / N) 0 fuel 0 (by omega) hfuel h ha
  rw [Nat.zero_mul, Nat.zero_add, Nat.count_zero, zero_add] at r1
  simp only [Nat.cast_zero, sub_zero] at r1
  refine ⟨f, _, w', b', last', Nat.div_pos hbig h0, hp, r1, ?_, r2, r3, r4, r5, fun k hk => r6 k (by omega) (by rwa [Nat.zero_add])⟩
  rw [div_div, Nat.cast_mul, mul_comm (N : ℝ)]

/-- A program can come to the point where the loop starts: with two tensors without elements for the batches. -/
theorem val_session (B : Built topo e [xi] [yo] m real tensors L θ₀) (ld : Loader ℝ) :
    ∃ (w : World) (b : Backend) (x p y : Nat), History e [xi] [yo] m real tensors L θ₀ θ₀ none w ∧ ValArgs e m yo ld w b x p y := by
  obtain ⟨w, b, it, p, y, g, hist, ha⟩ := loop_session B
  obtain ⟨x, rfl⟩ := List.length_eq_one_iff.1 ha.length
  have hnd := ha.nodup
  simp only [List.nodup_cons, List.mem_cons, List.not_mem_nil, or_false, not_or] at hnd
  obtain ⟨⟨-, hpy, hpx⟩, -, hyx, -⟩ := hnd
  have ex := ha.exist x (by simp)
  have ey := ha.exist y (by simp)
  refine ⟨{ w with store := (w.store.set x ⟨[], []⟩).set y ⟨[], []⟩ }, b, x, p, y,
    .write y _ (.write x _ hist ha.backend ex.2) ha.backend ey.2, ha.backend, ⟨⟨[], []⟩, ?_, .inl rfl⟩, ⟨⟨[], []⟩, ?_, .inl rfl⟩,
    ⟨rfl, fun i z a hz hh => ?_, ha.preds.outside⟩, ex.2, ey.2, Ne.symm hyx, hpx, hpy⟩
  · rw [List.getElem?_set_ne hyx, List.getElem?_set_self ex.1]
  · rw [List.getElem?_set_self (by simpa using ey.1)]
  · obtain rfl := getD_single hz
    obtain rfl := getD_single hh
    unfold Room
    rw [List.getElem?_set_ne (Ne.symm hpy), List.getElem?_set_ne (Ne.symm hpx)]
    exact ha.preds.room 0 _ _ rfl rfl

/-! ## Five samples in batches of two -/

/-- Five samples of one number each, the first two of class 0, and the others of class 1. -/
def fiveSamples : Dataset ℝ where
  size := 5
  shapeX := [1]
  shapeY := [1]
  x i _ := i
  y i _ := if i < 2 then 0 else 1

/-- Batch normalisation in evaluation mode predicts class 0 for every sample, there is no other. The loop reports two of four: the
fifth sample is not seen. -/
example : ∃ (m : Model) (L : Layers normE) (θ₀ : L.Params) (w w' : World) (b : Backend) (x p y : Nat) (env : Nat → Nat → Env) (acc : ℝ),
    Built (creationOrder normE) normE [0] [1] m (fun _ => 1) (fun _ => normTensors false) L θ₀ ∧
    History normE [0] [1] m (fun _ => 1) (fun _ => normTensors false) L θ₀ θ₀ none w ∧
    ValArgs normE m 1 ⟨fiveSamples, 2, false⟩ w b x p y ∧
    validationLoop m ⟨fiveSamples, 2, false⟩ (fun _ => 0) (fun _ => []) env x p y 0 0 3 (w, 0) = (.ok (some (acc, 2)), w', 0) ∧ acc / 2 = 1 / 2 := by
  classical
  obtain ⟨m, L, θ₀, B, hd⟩ := norm_built false
  obtain ⟨w, b, x, p, y, hist, ha⟩ := val_session B ⟨fiveSamples, 2, false⟩
  obtain ⟨pick, hpick⟩ := Props.MaxPoolP.exists_pick
  obtain ⟨f, acc, w', b', last', -, hp, h1, h2, -, -, -, -, h3⟩ := validation_accuracy (N := 2) (n := 1) B (fun x hx c hc name q hq => by
      simp only [normTensors, List.lookup_cons, List.lookup_nil] at hq
      split at hq
      · cases hq; rfl
      · split at hq
        · cases hq; rfl
        · cases hq) rfl (by norm_num) (by rw [normE_eq]; rfl) rfl (by rw [normE_eq]; rfl) (by norm_num) rfl (by norm_num [fiveSamples])
    (by norm_num [fiveSamples]) hist ha (env := fun _ _ => ⟨fun _ => 0, fun _ => 0, pick⟩) (fun _ _ => hpick) (fun _ => 0) (fun _ => [])
    (fuel := 3) (by norm_num [fiveSamples])
  refine ⟨m, L, θ₀, w, w', b, x, p, y, _, acc, B, hist, ha, h1, ?_⟩
  have hc : ∀ k < 4, Correct fiveSamples f k ↔ k < 2 := fun k hk => by
    have hl : (f (sampleList fiveSamples k)).length = 1 := h3 k hk
    have hy : fiveSamples.y k 0 = if k < 2 then 0 else 1 := by simp [fiveSamples]
    unfold Correct Hit
    rw [hy]
    constructor
    · rintro ⟨j, -, hj⟩
      by_contra hn
      rw [if_neg hn] at hj
      have : j.val = 0 := by have := j.isLt; omega
      rw [this] at hj
      norm_num at hj
    · intro hk
      rw [if_pos hk]
      exact ⟨⟨0, by omega⟩, ⟨fun j => le_of_eq (by congr 1; apply Fin.ext; have := j.isLt; omega), fun j hj => absurd hj (by
        have := j.isLt; rw [Fin.lt_def]; simp)⟩, by simp⟩
  have hq : fiveSamples.size / 2 * 2 = 4 := rfl
  simp only [hq] at h2
  have h4 : (fiveSamples.size / 2 : Nat) = 2 := rfl
  simp only [h4] at h2
  rw [show Nat.count (Correct fiveSamples f) 4 = 2 by simp [Nat.count_succ, hc 0, hc 1, hc 2, hc 3]] at h2
  norm_num at h2 ⊢
  exact h2

end

end DW.Props.ValidationP
