import Verif.Spec.Batch
import Verif.Props.Train
/-! # Layers in evaluation mode, sample by sample -/

set_option autoImplicit false

namespace DW.BatchL

open DW DW.Spec

variable {N : Nat}

/-- Sample `i` of `u` is sample `i'` of `u'`. -/
def Same {s : Shape} (i i' : Fin N) (u u' : Elems s) : Prop :=
  ∀ k < size s / N, entry u (i * (size s / N) + k) = entry u' (i' * (size s / N) + k)

theorem entry_mat {s : Shape} {n : Nat} (h : size s = N * n) (u : Elems s) (i : Fin N) (j : Fin n) :
    entry u (i * n + j) = arr (matE h) u (i, j) := by
  have hlt : i.val * n + j.val < size s := by
    rw [h]
    calc i.val * n + j.val < i.val * n + n := by omega
      _ = (i.val + 1) * n := by ring
      _ ≤ N * n := Nat.mul_le_mul_right _ i.isLt
  rw [entry, dif_pos hlt, arr]
  congr 1
  apply Fin.ext
  simp [matE, finProdFinEquiv]
  ring

theorem same_mat {s : Shape} {n : Nat} (h : size s = N * n) {i i' : Fin N} {u u' : Elems s} :
    Same i i' u u' ↔ ∀ j : Fin n, arr (matE h) u (i, j) = arr (matE h) u' (i', j) := by
  have hN : 0 < N := i.pos
  have hn : size s / N = n := by rw [h, Nat.mul_div_cancel_left _ hN]
  unfold Same
  rw [hn]
  constructor
  · intro H j
    rw [← entry_mat h, ← entry_mat h]
    exact H j j.isLt
  · intro H k hk
    have := H ⟨k, hk⟩
    rwa [← entry_mat h, ← entry_mat h] at this

theorem arr_img {s : Shape} {C H W : Nat} (h : size s = N * (C * (H * W))) (u : Elems s) (i : Fin N)
    (c : Fin C) (y : Fin H) (x : Fin W) : arr (imgE h) u (i, c, y, x) =
      arr (matE h) u (i, (matE (rfl : C * (H * W) = C * (H * W))).symm (c, (matE (rfl : H * W = H * W)).symm (y, x))) := rfl

theorem same_img {s : Shape} {C H W : Nat} (h : size s = N * (C * (H * W))) {i i' : Fin N} {u u' : Elems s} :
    Same i i' u u' ↔ ∀ c y x, arr (imgE h) u (i, c, y, x) = arr (imgE h) u' (i', c, y, x) := by
  rw [same_mat h]
  constructor
  · intro H c y x
    rw [arr_img, arr_img]
    exact H _
  · intro H j
    have := H ((matE rfl) j).1 ((matE rfl) ((matE rfl) j).2).1 ((matE rfl) ((matE rfl) j).2).2
    rw [arr_img, arr_img] at this
    simpa using this

theorem arr_elems {s : Shape} {ι : Type} (E : Fin (size s) ≃ ι) (y : ι → ℝ) : arr E (elems E y) = y := by
  funext i
  simp [arr, elems]

theorem size_batch (rest : Shape) : size ((N : Int) :: rest) = N * size rest := by
  unfold size count
  rw [List.prod_cons]
  rcases le_total 0 (List.prod rest) with h | h
  · obtain ⟨k, hk⟩ := Int.eq_ofNat_of_zero_le h
    rw [hk]
    exact_mod_cast Int.toNat_natCast (N * k)
  · rw [Int.toNat_of_nonpos h, Int.toNat_of_nonpos (mul_nonpos_of_nonneg_of_nonpos (by positivity) h)]
    rfl

/-- `f` maps batches of `N` to batches of `N`, sample by sample. -/
def BySample {s o : Shape} (N : Nat) (f : Elems s → Elems o) : Prop :=
  IsBatchOf N o ∧ ∀ (i i' : Fin N) (u u' : Elems s), Same i i' u u' → Same i i' (f u) (f u')

theorem same_map {s : Shape} {n : Nat} (h : size s = N * n) {i i' : Fin N} {u u' : Elems s} (f : ℝ → ℝ) (H : Same i i' u u') :
    Same i i' (fun k => f (u k)) fun k => f (u' k) := by
  rw [same_mat h] at H ⊢
  exact fun j => congrArg f (H j)

noncomputable section

variable {real : F32 → ℝ} {t : InfoTensors}

theorem cons_inj {N B : Nat} {rest r : Shape} (h : ((B : Int) :: rest) = (N : Int) :: r) : B = N := by
  have := (List.cons.inj h).1
  exact_mod_cast this

theorem computes1_sample {op : Op} {s o : Shape} {P : Nat} {f : (Nat → ℝ) → (Fin P → ℝ) → Elems s → Elems o} {θ : Fin P → ℝ}
    {exact : Prop} (h : Computes1 real t op s o P f θ exact) (hf : Frozen t) (hs : IsBatchOf N s) (r : Nat → ℝ) (θ' : Fin P → ℝ) :
    BySample N (f r θ') := by
  obtain ⟨rest, hs⟩ := hs
  cases h with
  | relu => subst hs; exact ⟨⟨_, rfl⟩, fun i i' u u' H => same_map (size_batch rest) _ H⟩
  | leakyReLU => subst hs; exact ⟨⟨_, rfl⟩, fun i i' u u' H => same_map (size_batch rest) _ H⟩
  | elu => subst hs; exact ⟨⟨_, rfl⟩, fun i i' u u' H => same_map (size_batch rest) _ H⟩
  | sigmoid => subst hs; exact ⟨⟨_, rfl⟩, fun i i' u u' H => same_map (size_batch rest) _ H⟩
  | @softmax B n hn =>
    obtain rfl := cons_inj hs
    refine ⟨⟨_, rfl⟩, fun i i' u u' H => ?_⟩
    rw [same_mat (size_mat _ n)] at H ⊢
    intro j
    simp only [softmaxFn, arr_elems, Function.uncurry, softmax, Function.curry, H]
  | @linear B n u rest' hne hst hfit hc _ _ _ hw hb =>
    obtain rfl := cons_inj hs
    refine ⟨⟨_, rfl⟩, fun i i' x x' H => ?_⟩
    rw [same_mat (size_cons hc)] at H
    rw [same_mat (size_mat _ u)]
    intro j
    simp only [linearFn, arr_elems, Function.uncurry, linear, Function.curry, H]
  | @batchNorm1D B n eps alpha heps hn hfit _ mu var hg =>
    obtain ⟨g, hg, -⟩ := hg
    exact absurd (hf _ _ hg) (by simp)
  | @batchNorm1DEval B n eps alpha heps hn hfit _ mu var hpos =>
    obtain rfl := cons_inj hs
    refine ⟨⟨_, rfl⟩, fun i i' u u' H => ?_⟩
    rw [same_mat (size_mat _ n)] at H ⊢
    intro j
    simp only [normaliseFn, arr_elems, H]
  | @batchNorm2D B C H W eps alpha heps hC hn hfit _ mu var hg =>
    obtain ⟨g, hg, -⟩ := hg
    exact absurd (hf _ _ hg) (by simp)
  | @batchNorm2DEval B C H W eps alpha heps hC hn hfit _ mu var hpos =>
    obtain rfl := cons_inj hs
    refine ⟨⟨_, rfl⟩, fun i i' u u' H => ?_⟩
    rw [same_img (size_img _ C _ W)] at H ⊢
    intro c y x
    simp only [normalise2dFn, arr_elems, H]
  | @globalAvgPooling B C H W hH hW =>
    obtain rfl := cons_inj hs
    refine ⟨⟨_, rfl⟩, fun i i' u u' H => ?_⟩
    rw [same_img (size_img _ C _ W)] at H
    rw [same_mat (size_pooled _ C)]
    intro c
    simp only [gapFn, arr_elems, planeMean, arr4, H]
  | dropout p hp s m hm =>
    obtain ⟨g, hm, -⟩ := hm
    exact absurd (hf _ _ hm) (by simp)
  | dropoutEval p s hsz m hm => subst hs; exact ⟨⟨_, rfl⟩, fun i i' u u' H => H⟩
  | @convolution B C O a b ha hb hfit hpos _ _ _ hw hbias =>
    obtain rfl := cons_inj hs
    refine ⟨⟨_, rfl⟩, fun i i' u u' H => ?_⟩
    rw [same_img (size_img _ C a.size b.size)] at H
    rw [same_img (size_img _ O a.out b.out)]
    intro c y x
    have : arr4 (arr (imgE (size_img _ C a.size b.size)) u) i = arr4 (arr (imgE (size_img _ C a.size b.size)) u') i' := by
      funext c y x
      exact H c y x
    simp only [convFn, arr_elems, conv, this]
  | @maxPooling B C a b ha hb hfit hfit' =>
    obtain rfl := cons_inj hs
    refine ⟨⟨_, rfl⟩, fun i i' u u' H => ?_⟩
    rw [same_img (size_img _ C a.size b.size)] at H
    rw [same_img (size_img _ C a.out b.out)]
    intro c y x
    have : arr4 (arr (imgE (size_img _ C a.size b.size)) u) i = arr4 (arr (imgE (size_img _ C a.size b.size)) u') i' := by
      funext c y x
      exact H c y x
    simp only [poolFn, arr_elems, maxPool, this]

theorem computes_sample {op : Op} {n : Nat} {ishape : Fin n → Shape} {o : Shape} {P : Nat}
    {f : (Nat → ℝ) → (Fin P → ℝ) → Args ishape → Elems o} {θ : Fin P → ℝ} {ex : Prop} (h : Computes real t op ishape o P f θ ex)
    (hf : Frozen t) (hs : ∀ j, IsBatchOf N (ishape j)) (r : Nat → ℝ) (θ' : Fin P → ℝ) : IsBatchOf N o ∧
      ∀ (i i' : Fin N) (X X' : Args ishape), (∀ j, Same i i' (X j) (X' j)) → Same i i' (f r θ' X) (f r θ' X') := by
  cases h with
  | one hn hsh ho h =>
    subst hn hsh ho
    have := computes1_sample h hf (hs _) r θ'
    exact ⟨this.1, fun i i' X X' H => this.2 i i' _ _ (H _)⟩
  | add hn h0 h1 =>
    subst hn h0
    obtain ⟨rest, hr⟩ := hs ⟨0, by omega⟩
    refine ⟨⟨rest, hr⟩, fun i i' X X' H => ?_⟩
    have hsz : size (ishape ⟨0, by omega⟩) = N * size rest := by rw [hr]; exact size_batch rest
    have hsz1 : size (ishape ⟨1, by omega⟩) = N * size rest := by rw [h1, hr]; exact size_batch rest
    rw [same_mat hsz]
    intro j
    have e0 := (same_mat hsz).1 (H ⟨0, by omega⟩) j
    have e1 := (same_mat hsz1).1 (H ⟨1, by omega⟩) j
    have : ∀ (i : Fin N) (Y : Args ishape), arr (matE hsz) (recast h1 (Y ⟨1, by omega⟩)) (i, j) =
        arr (matE hsz1) (Y ⟨1, by omega⟩) (i, j) := fun _ _ => rfl
    exact congrArg₂ (· + ·) e0 ((this i X).trans (e1.trans (this i' X').symm))

/-! ### Models -/

variable {topo : Graph → List Node} {e : Expr} {ins outs : List Nat} {m : Model} {tensors : Nat → InfoTensors}
  {L : Layers e} {θ₀ : L.Params}

/-- All tensors of the model are batches of `N`. -/
theorem batches (B : Built topo e ins outs m real tensors L θ₀)
    (hf : ∀ x ∈ dataOf m, ∀ c, e.callOf x = some c → Frozen (tensors (e.callInfo c))) (hN : ∀ y ∈ ins, IsBatchOf N (phShape e y)) :
    ∀ x ∈ dataOf m, IsBatchOf N (phShape e x) := by
  have pl := HistL.plan B
  intro x
  induction x using Nat.strong_induction_on with
  | _ x ih =>
    intro hx
    cases hc : e.callOf x with
    | none => exact hN x (B.sound.listed x hx hc)
    | some c =>
      refine (computes_sample (B.layers x hx c hc) (hf x hx c hc) (fun j => ?_) (fun _ => 0) (θ₀ x)).1
      have hmem := List.getElem_mem j.isLt
      exact ih _ (pl.lt x _ hmem) ((pl.make x hx c hc).2.2.2 _ hmem).1

/-- The values of a model, sample by sample. -/
theorem values_sample (B : Built topo e ins outs m real tensors L θ₀)
    (hf : ∀ x ∈ dataOf m, ∀ c, e.callOf x = some c → Frozen (tensors (e.callInfo c))) (hN : ∀ y ∈ ins, IsBatchOf N (phShape e y))
    {env env' : Nat → Env} {θ : L.Params} {v v' : Vals e} (hv : (L.net m env).Evaluates θ v) (hv' : (L.net m env').Evaluates θ v')
    {i i' : Fin N} (hin : ∀ y ∈ ins, Same i i' (v y) (v' y)) : ∀ x ∈ dataOf m, Same i i' (v x) (v' x) := by
  have pl := HistL.plan B
  have hb := batches B hf hN
  intro x
  induction x using Nat.strong_induction_on with
  | _ x ih =>
    intro hx
    cases hc : e.callOf x with
    | none => exact hin x (B.sound.listed x hx hc)
    | some c =>
      have hs : (e.callOf x).isSome := by rw [hc]; rfl
      rw [hv x (Props.BackendP.mem_net.2 ⟨hx, hs⟩), hv' x (Props.BackendP.mem_net.2 ⟨hx, hs⟩)]
      show Same i i' (L.fn x (rngOf e env x) (θ x) _) (L.fn x (rngOf e env' x) (θ x) _)
      rw [Props.BackendP.computes_frozen (B.layers x hx c hc) (hf x hx c hc) (rngOf e env' x) (rngOf e env x)]
      have harg : ∀ j : Fin (e.argsOf x).length, (e.argsOf x)[j] < x ∧ (e.argsOf x)[j] ∈ dataOf m := fun j => by
        have hmem := List.getElem_mem j.isLt
        exact ⟨pl.lt x _ hmem, ((pl.make x hx c hc).2.2.2 _ hmem).1⟩
      refine (computes_sample (B.layers x hx c hc) (hf x hx c hc) (fun j => hb _ (harg j).2) _ (θ x)).2 i i' _ _ fun j => ?_
      exact ih _ (harg j).1 (harg j).2

/-! ### Lists -/

theorem same_list {s : Shape} {n : Nat} (h : size s = N * n) {i i' : Fin N} {u u' : Elems s} :
    Same i i' u u' ↔ sampleOf N i (List.ofFn u) = sampleOf N i' (List.ofFn u') := by
  have hN : 0 < N := i.pos
  have hn : size s / N = n := by rw [h, Nat.mul_div_cancel_left _ hN]
  have hle : ∀ i : Fin N, i.val * n + n ≤ size s := fun i => by
    rw [h]
    calc i.val * n + n = (i.val + 1) * n := by ring
      _ ≤ N * n := Nat.mul_le_mul_right _ i.isLt
  unfold Same sampleOf
  simp only [List.length_ofFn, hn]
  constructor
  · intro H
    refine List.ext_getElem (by simp; have := hle i; have := hle i'; omega) fun k h1 h2 => ?_
    simp only [List.getElem_take, List.getElem_drop, List.getElem_ofFn]
    simp only [List.length_take, lt_min_iff] at h1
    have := H k h1.1
    have l1 := hle i
    have l2 := hle i'
    rwa [entry, entry, dif_pos (by omega), dif_pos (by omega)] at this
  · intro H k hk
    have l1 := hle i
    have l2 := hle i'
    have := congrArg (fun l : List ℝ => l[k]?) H
    simp only [List.getElem?_take, hk, if_true, List.getElem?_drop, List.getElem?_ofFn] at this
    rw [dif_pos (by omega), dif_pos (by omega)] at this
    rw [entry, entry, dif_pos (by omega), dif_pos (by omega)]
    exact Option.some.inj this

end

end DW.BatchL
