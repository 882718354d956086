import Verif.Lemmas.Values
import Verif.Lemmas.SampleNet
import Verif.Spec.SampleForward
import Verif.Props.Backend
/-!
# What the networks of the samples compute, layer by layer
-/

set_option autoImplicit false

namespace DW.SampleL

open DW DW.Spec DW.Samples DW.GraphL DW.ValueL

noncomputable section

/-- The values `v` of the placeholders are those the layers of the table compute with the tensors `t`. -/
structure Values (real : F32 → ℝ) (e : Expr) (B : Nat) (input : List Nat) (l : List Step) (t : Nat → InfoTensors) (v : Vals e) : Prop where
  shape : ∀ {i : Nat} {s : Step}, l[i]? = some s → ∀ {j a : Nat}, s.args[j]? = some a → phShape e a = batchOf B (restAt input l a)
  result : ∀ {i : Nat} {s : Step}, l[i]? = some s → phShape e (i + 1) = batchOf B s.rest
  args : ∀ {i : Nat} {s : Step}, l[i]? = some s → e.argsOf (i + 1) = s.args
  layer : ∀ {i : Nat} {s : Step}, l[i]? = some s → ∃ (P : Nat) (fn : (Nat → ℝ) → (Fin P → ℝ) →
      Args (fun j : Fin (e.argsOf (i + 1)).length => phShape e (e.argsOf (i + 1))[j]) → Elems (phShape e (i + 1))) (θ : Fin P → ℝ)
      (ex : Prop) (r : Nat → ℝ), Computes real (t i) s.op (fun j : Fin (e.argsOf (i + 1)).length => phShape e (e.argsOf (i + 1))[j])
        (phShape e (i + 1)) P fn θ ex ∧ v (i + 1) = fn r θ fun j => v (e.argsOf (i + 1))[j]

variable {real : F32 → ℝ} {e : Expr} {B : Nat} {input : List Nat} {l : List Step} {t : Nat → InfoTensors} {v : Vals e} {K : Nat}
  {topo : Graph → List Node} {m : Model} {L : Layers e} {θ : L.Params}

theorem net_values (h : IsNet e B input l) (hc : Checked K input l) (Bt : Built topo e [0] [l.length] m real t L θ) {env : Nat → Env}
    (hv : (L.net m env).Evaluates θ v) : Values real e B input l t v := by
  have hr := Bt.reachable
  obtain ⟨e', hm⟩ := Bt.ctor
  have hd := net_data hr h hc Bt.sorts hm
  have hlt : ∀ {i : Nat} {s : Step}, l[i]? = some s → i < l.length := fun hs => (List.getElem?_eq_some_iff.1 hs).1
  refine ⟨fun {i s} hs {j a} ha => ?_, fun {i s} hs => ?_, fun hs => net_argsOf h hs, fun {i s} hs => ?_⟩
  · have hi := hlt hs
    refine net_phShape h ?_
    have := (reachable_wf hr).arg_lt _ _ (net_callOf h hi) a (by rw [net_callArgs h hs]; exact List.mem_of_getElem? ha)
    omega
  · rw [net_phShape h (hlt hs)]
    simp [restAt, hs]
  · have hi := hlt hs
    have hx := (hd (i + 1)).2 hi
    have hcomp := Bt.layers (i + 1) hx i (net_callOf h hi)
    rw [net_callInfo h hi, (net_info h hs).2] at hcomp
    exact ⟨_, _, _, _, _, hcomp, hv (i + 1) (Props.BackendP.mem_net.2 ⟨hx, by rw [net_callOf h hi]; rfl⟩)⟩

/-- The value at another name of the same placeholder. -/
theorem at_arg {α : Type} (f : (s : Shape) → Elems s → α) {as : List Nat} {j a : Nat} (hj : j < as.length) (h : as[j]? = some a) :
    f _ (v as[j]) = f _ (v a) := by
  obtain rfl : as[j] = a := by rw [List.getElem?_eq_getElem hj] at h; exact Option.some.inj h
  rfl

theorem count_cast (r : List Nat) : count (r.map fun n : Nat => (n : Int)) = ((r.prod : Nat) : Int) := prod_cast r

theorem Values.arg (h : Values real e B input l t v) {i : Nat} {s : Step} (hs : l[i]? = some s) {j a : Nat} (ha : s.args[j]? = some a) :
    ∃ hj : j < (e.argsOf (i + 1)).length, phShape e (e.argsOf (i + 1))[j] = batchOf B (restAt input l a) ∧
      ∀ {α : Type} (f : (s : Shape) → Elems s → α), f _ (v (e.argsOf (i + 1))[j]) = f _ (v a) := by
  have h0 : (e.argsOf (i + 1))[j]? = some a := by rw [h.args hs]; exact ha
  have hj := (List.getElem?_eq_some_iff.1 h0).1
  refine ⟨hj, ?_, fun f => at_arg f hj h0⟩
  rw [(List.getElem?_eq_some_iff.1 h0).2, h.shape hs ha]

section

variable {i : Nat} {nm : String} {a a' : Nat} {rest : List Nat}

theorem v_linear (h : Values real e B input l t v) {u : Nat} (hs : l[i]? = some ⟨.linear u, nm, [a], [u]⟩) {k : Nat}
    (hk : (restAt input l a).prod = k) {p : Affine u k} (hp : p.In (t i)) :
    rowsOf B u (v (i + 1)) = p.apply (rowsOf B k (v a)) := by
  obtain ⟨P, fn, θ, ex, r, h1, h2⟩ := h.layer hs
  obtain ⟨⟨tw, hw⟩, tb, hb⟩ := hp
  obtain ⟨hn, hsh, hval⟩ := h.arg hs (j := 0) rfl
  rw [h2, linear_fn h1 rfl hn hsh (by rw [count_cast, hk]) hw hb]
  exact congrArg p.apply (hval fun _ u => rowsOf B k u)

theorem v_relu (h : Values real e B input l t v) (hs : l[i]? = some ⟨.relu, nm, [a], rest⟩) (k : Nat) :
    entry (v (i + 1)) k = relu (entry (v a) k) := by
  obtain ⟨P, fn, θ, ex, r, h1, h2⟩ := h.layer hs
  obtain ⟨hn, hsh, hval⟩ := h.arg hs (j := 0) rfl
  rw [h2, relu_fn h1 rfl hn]
  exact congrArg relu (hval fun _ u => entry u k)

theorem v_reluRows (h : Values real e B input l t v) (hs : l[i]? = some ⟨.relu, nm, [a], rest⟩) (k : Nat) :
    rowsOf B k (v (i + 1)) = reluRows (rowsOf B k (v a)) := by
  funext i j; exact v_relu h hs _

theorem v_reluImages (h : Values real e B input l t v) (hs : l[i]? = some ⟨.relu, nm, [a], rest⟩) (C H W : Nat) :
    imagesOf B C H W (v (i + 1)) = reluImages (imagesOf B C H W (v a)) := by
  funext i c y x; exact v_relu h hs _

theorem v_add (h : Values real e B input l t v) (hs : l[i]? = some ⟨.add, nm, [a, a'], rest⟩) (C H W : Nat) :
    imagesOf B C H W (v (i + 1)) = fun i c y x => imagesOf B C H W (v a) i c y x + imagesOf B C H W (v a') i c y x := by
  obtain ⟨P, fn, θ, ex, r, h1, h2⟩ := h.layer hs
  obtain ⟨hn, -, hval⟩ := h.arg hs (j := 0) rfl
  obtain ⟨hn', -, hval'⟩ := h.arg hs (j := 1) rfl
  funext i c y x
  simp only [imagesOf]
  rw [h2, add_fn h1 rfl hn']
  exact congrArg₂ (· + ·) (hval fun _ u => entry u _) (hval' fun _ u => entry u _)

theorem v_softmax (h : Values real e B input l t v) {k : Nat} (hs : l[i]? = some ⟨.softmax, nm, [a], rest⟩) (hr : restAt input l a = [k]) :
    rowsOf B k (v (i + 1)) = softmax (rowsOf B k (v a)) := by
  obtain ⟨P, fn, θ, ex, r, h1, h2⟩ := h.layer hs
  obtain ⟨hn, hsh, hval⟩ := h.arg hs (j := 0) rfl
  rw [hr] at hsh
  rw [h2, (softmax_fn h1 rfl hn hsh _ _).2]
  exact congrArg softmax (hval fun _ u => rowsOf B k u)

theorem v_norm1 (h : Values real e B input l t v) {k : Nat} {eps alpha : F32} (hs : l[i]? = some ⟨.batchNorm1D eps alpha, nm, [a], rest⟩)
    (hr : restAt input l a = [k]) {training : Bool} {p : NormParams k} (hp : p.In training (t i)) :
    rowsOf B k (v (i + 1)) = normRows training (real eps) p (rowsOf B k (v a)) := by
  obtain ⟨P, fn, θ, ex, r, h1, h2⟩ := h.layer hs
  obtain ⟨hn, hsh, hval⟩ := h.arg hs (j := 0) rfl
  rw [hr] at hsh
  rw [h2, ← hval fun _ u => rowsOf B k u]
  cases training with
  | true => rw [norm1_train h1 rfl hn hsh hp.gamma hp.beta]; rfl
  | false => rw [norm1_eval h1 rfl hn hsh hp.gamma hp.beta hp.mean hp.var]; rfl

theorem v_norm2 (h : Values real e B input l t v) {C H W : Nat} {eps alpha : F32} (hs : l[i]? = some ⟨.batchNorm2D eps alpha, nm, [a], rest⟩)
    (hr : restAt input l a = [C, H, W]) {training : Bool} {p : NormParams C} (hp : p.In training (t i)) :
    imagesOf B C H W (v (i + 1)) = normImages training (real eps) p (imagesOf B C H W (v a)) := by
  obtain ⟨P, fn, θ, ex, r, h1, h2⟩ := h.layer hs
  obtain ⟨hn, hsh, hval⟩ := h.arg hs (j := 0) rfl
  rw [hr] at hsh
  rw [h2, ← hval fun _ u => imagesOf B C H W u]
  cases training with
  | true => rw [norm2_train h1 rfl hn hsh hp.gamma hp.beta]; rfl
  | false => rw [norm2_eval h1 rfl hn hsh hp.gamma hp.beta hp.mean hp.var]; rfl

theorem v_gap (h : Values real e B input l t v) {C H W : Nat} (hs : l[i]? = some ⟨.globalAvgPooling, nm, [a], rest⟩)
    (hr : restAt input l a = [C, H, W]) : rowsOf B C (v (i + 1)) = planeMean (imagesOf B C H W (v a)) := by
  obtain ⟨P, fn, θ, ex, r, h1, h2⟩ := h.layer hs
  obtain ⟨hn, hsh, hval⟩ := h.arg hs (j := 0) rfl
  rw [hr] at hsh
  rw [h2, gap_fn h1 rfl hn hsh]
  exact congrArg planeMean (hval fun _ u => imagesOf B C H W u)

theorem v_pool (h : Values real e B input l t v) {C d k p st o : Nat} (ha : (axis d k p st o).Plain)
    (hs : l[i]? = some ⟨.maxPooling (k, k) (p, p) (st, st), nm, [a], [C, o, o]⟩) (hr : restAt input l a = [C, d, d]) :
    imagesOf B C o o (v (i + 1)) = maxPool (axis d k p st o) (axis d k p st o) floatMin (imagesOf B C d d (v a)) := by
  obtain ⟨P, fn, θ, ex, r, h1, h2⟩ := h.layer hs
  obtain ⟨hn, hsh, hval⟩ := h.arg hs (j := 0) rfl
  rw [hr] at hsh
  rw [h2, pool_fn h1 ha ha rfl hn hsh (h.result hs)]
  exact congrArg (maxPool (axis d k p st o) (axis d k p st o) floatMin) (hval fun _ u => imagesOf B C d d u)

theorem v_conv (h : Values real e B input l t v) {C O d k p st o : Nat} (ha : (axis d k p st o).Plain)
    (hs : l[i]? = some ⟨.convolution O (k, k) (p, p) (st, st), nm, [a], [O, o, o]⟩) (hr : restAt input l a = [C, d, d])
    {q : Kernels O C k} (hq : q.In (t i)) :
    imagesOf B O o o (v (i + 1)) = conv (axis d k p st o) (axis d k p st o) (imagesOf B C d d (v a)) q.weight q.bias := by
  obtain ⟨P, fn, θ, ex, r, h1, h2⟩ := h.layer hs
  obtain ⟨⟨tw, hw⟩, tb, hb⟩ := hq
  obtain ⟨hn, hsh, hval⟩ := h.arg hs (j := 0) rfl
  rw [hr] at hsh
  rw [h2, conv_fn h1 ha ha rfl hn hsh (h.result hs) hw hb]
  exact congrArg (fun X => conv (axis d k p st o) (axis d k p st o) X q.weight q.bias) (hval fun _ u => imagesOf B C d d u)

end

/-! ### The networks -/

theorem dense_values {k n : Nat} (h : Values real e B [k] (denseNet n) t v) {training : Bool} {p : DenseParams k n} (hp : p.In training t) :
    rowsOf B n (v 5) = denseForward training (real 0x3a83126f#32) p (rowsOf B k (v 0)) := by
  rw [v_softmax h (i := 4) (a := 4) rfl rfl, v_linear h (i := 3) (a := 3) (k := 100) rfl rfl hp.linear2, v_norm1 h (i := 2) (a := 2) rfl rfl hp.norm,
    v_reluRows h (i := 1) (a := 1) rfl, v_linear h (i := 0) (a := 0) (k := k) rfl (by simp [restAt]) hp.linear0]
  rfl

theorem plain_same5 (d : Nat) : (axis d 5 2 1 d).Plain :=
  ⟨⟨Nat.succ_pos _, by show ((d : Int) + 2 * 2 - (1 * (5 - 1) + 1)).tdiv 1 + 1 = d; rw [Int.tdiv_one]; omega⟩, rfl, Nat.succ_pos _⟩

theorem plain_same3 (d : Nat) : (axis d 3 1 1 d).Plain :=
  ⟨⟨Nat.succ_pos _, by show ((d : Int) + 2 * 1 - (1 * (3 - 1) + 1)).tdiv 1 + 1 = d; rw [Int.tdiv_one]; omega⟩, rfl, Nat.succ_pos _⟩

theorem plain_half3 {d : Nat} (hd : 0 < d) : (axis (2 * d) 3 1 2 d).Plain := by
  refine ⟨⟨Nat.succ_pos _, ?_⟩, rfl, Nat.succ_pos _⟩
  show (((2 * d : Nat) : Int) + 2 * 1 - (1 * (3 - 1) + 1)).tdiv 2 + 1 = d
  rw [Int.tdiv_eq_ediv_of_nonneg (by omega)]
  omega

theorem plain_pool {d : Nat} (hd : 0 < d) : (axis (2 * d) 2 0 2 d).Plain := by
  refine ⟨⟨Nat.succ_pos _, ?_⟩, rfl, Nat.succ_pos _⟩
  show (((2 * d : Nat) : Int) + 2 * 0 - (1 * (2 - 1) + 1)).tdiv 2 + 1 = d
  rw [Int.tdiv_eq_ediv_of_nonneg (by omega)]
  omega

theorem convPool_values (h : Values real e B input l t v) {i a C O d : Nat} {n1 n2 n3 : String} (hd : 0 < d)
    (h1 : l[i]? = some ⟨.convolution O (5, 5) (2, 2) (1, 1), n1, [a], [O, 2 * d, 2 * d]⟩)
    (h2 : l[i + 1]? = some ⟨.maxPooling (2, 2) (0, 0) (2, 2), n2, [i + 1], [O, d, d]⟩)
    (h3 : l[i + 2]? = some ⟨.relu, n3, [i + 2], [O, d, d]⟩) (hr : restAt input l a = [C, 2 * d, 2 * d]) {p : Kernels O C 5} (hp : p.In (t i)) :
    imagesOf B O d d (v (i + 3)) = convPool d p (imagesOf B C (2 * d) (2 * d) (v a)) := by
  have e1 : restAt input l (i + 1) = [O, 2 * d, 2 * d] := by simp [restAt, h1]
  rw [v_reluImages h h3, v_pool h (plain_pool hd) h2 e1, v_conv h (plain_same5 (2 * d)) h1 hr hp]
  rfl

theorem cifar_values (h : Values real e B [3, 32, 32] cifar10Net t v) {training : Bool} {p : CifarParams} (hp : p.In training t) :
    rowsOf B 10 (v 14) = cifarForward training (real 0x3a83126f#32) p (imagesOf B 3 32 32 (v 0)) := by
  have e1 := convPool_values h (i := 0) (a := 0) (C := 3) (O := 64) (d := 16) (by decide) rfl rfl rfl rfl hp.conv1
  have e2 := convPool_values h (i := 3) (a := 3) (C := 64) (O := 64) (d := 8) (by decide) rfl rfl rfl rfl hp.conv4
  rw [v_softmax h (i := 13) (a := 13) rfl rfl, v_linear h (i := 12) (a := 12) (k := 192) rfl rfl hp.linear13,
    v_norm1 h (i := 11) (a := 11) rfl rfl hp.norm12, v_reluRows h (i := 10) (a := 10) rfl,
    v_linear h (i := 9) (a := 9) (k := 384) rfl rfl hp.linear10, v_norm1 h (i := 8) (a := 8) rfl rfl hp.norm9,
    v_reluRows h (i := 7) (a := 7) rfl, v_linear h (i := 6) (a := 6) (k := 64 * (8 * 8)) rfl rfl hp.linear7, rowsOf_flatten, e2, e1]
  rfl

theorem convNorm_values (h : Values real e B input l t v) {i a C O s st d : Nat} {n1 n2 : String} (hpl : (axis s 3 1 st d).Plain)
    (h1 : l[i]? = some ⟨conv3 O st, n1, [a], [O, d, d]⟩) (h2 : l[i + 1]? = some ⟨norm2D, n2, [i + 1], [O, d, d]⟩)
    (hr : restAt input l a = [C, s, s]) {training : Bool} {p : ConvNorm O C} (hp : p.In training (t i) (t (i + 1))) :
    imagesOf B O d d (v (i + 2)) = p.apply training (real 0x3727c5ac#32) s st d (imagesOf B C s s (v a)) := by
  have e1 : restAt input l (i + 1) = [O, d, d] := by simp [restAt, h1]
  rw [v_norm2 h h2 e1 hp.norm, v_conv h hpl h1 hr hp.conv]
  rfl

theorem block_values (h : Values real e B input l t v) {n C d : Nat} (hl : ∀ k, k < 7 → l[n + k]? = (resBlock n n C 1 d false)[k]?)
    (hr : restAt input l n = [C, d, d]) {training : Bool} {p : Block C} (hp : p.In training t n) :
    imagesOf B C d d (v (n + 7)) = p.apply training (real 0x3727c5ac#32) d (imagesOf B C d d (v n)) := by
  have h0 : l[n]? = some ⟨conv3 C 1, "", [n], [C, d, d]⟩ := hl 0 (by decide)
  have h1 : l[n + 1]? = some ⟨norm2D, "", [n + 1], [C, d, d]⟩ := hl 1 (by decide)
  have h2 : l[n + 2]? = some ⟨.relu, "", [n + 2], [C, d, d]⟩ := hl 2 (by decide)
  have h3 : l[n + 3]? = some ⟨conv3 C 1, "", [n + 3], [C, d, d]⟩ := hl 3 (by decide)
  have h4 : l[n + 4]? = some ⟨norm2D, "", [n + 4], [C, d, d]⟩ := hl 4 (by decide)
  have h5 : l[n + 5]? = some ⟨.add, "", [n + 5, n], [C, d, d]⟩ := hl 5 (by decide)
  have h6 : l[n + 6]? = some ⟨.relu, "", [n + 6], [C, d, d]⟩ := hl 6 (by decide)
  have e3 : restAt input l (n + 3) = [C, d, d] := by simp [restAt, h2]
  rw [v_reluImages h h6, v_add h h5, convNorm_values h (plain_same3 d) h3 h4 e3 hp.second, v_reluImages h h2,
    convNorm_values h (plain_same3 d) h0 h1 hr hp.first]
  rfl

theorem downBlock_values (h : Values real e B input l t v) {n C O d : Nat} (hd : 0 < d)
    (hl : ∀ k, k < 9 → l[n + k]? = (resBlock n n O 2 d true)[k]?)
    (hr : restAt input l n = [C, 2 * d, 2 * d]) {training : Bool} {p : DownBlock O C} (hp : p.In training t n) :
    imagesOf B O d d (v (n + 9)) = p.apply training (real 0x3727c5ac#32) d (imagesOf B C (2 * d) (2 * d) (v n)) := by
  have h0 : l[n]? = some ⟨conv3 O 2, "", [n], [O, d, d]⟩ := hl 0 (by decide)
  have h1 : l[n + 1]? = some ⟨norm2D, "", [n + 1], [O, d, d]⟩ := hl 1 (by decide)
  have h2 : l[n + 2]? = some ⟨.relu, "", [n + 2], [O, d, d]⟩ := hl 2 (by decide)
  have h3 : l[n + 3]? = some ⟨conv3 O 1, "", [n + 3], [O, d, d]⟩ := hl 3 (by decide)
  have h4 : l[n + 4]? = some ⟨norm2D, "", [n + 4], [O, d, d]⟩ := hl 4 (by decide)
  have h5 : l[n + 5]? = some ⟨conv3 O 2, "", [n], [O, d, d]⟩ := hl 5 (by decide)
  have h6 : l[n + 6]? = some ⟨norm2D, "", [n + 6], [O, d, d]⟩ := hl 6 (by decide)
  have h7 : l[n + 7]? = some ⟨.add, "", [n + 5, n + 7], [O, d, d]⟩ := hl 7 (by decide)
  have h8 : l[n + 8]? = some ⟨.relu, "", [n + 8], [O, d, d]⟩ := hl 8 (by decide)
  have e3 : restAt input l (n + 3) = [O, d, d] := by simp [restAt, h2]
  rw [v_reluImages h h8, v_add h h7, convNorm_values h (plain_same3 d) h3 h4 e3 hp.second, v_reluImages h h2,
    convNorm_values h (plain_half3 hd) h0 h1 hr hp.first, convNorm_values h (plain_half3 hd) h5 h6 hr hp.shortcut]
  rfl

theorem resnet_values (h : Values real e B [3, 32, 32] resnet t v) {training : Bool} {p : ResnetParams} (hp : p.In training t) :
    rowsOf B 100 (v 52) = resnetForward training (real 0x3727c5ac#32) p (imagesOf B 3 32 32 (v 0)) := by
  have c0 := convNorm_values h (i := 0) (a := 0) (C := 3) (plain_same3 32) rfl rfl rfl hp.stem
  have c1 := block_values h (n := 3) (C := 16) (d := 32) (by decide +kernel) rfl hp.block1
  have c2 := block_values h (n := 10) (C := 16) (d := 32) (by decide +kernel) rfl hp.block2
  have c3 := downBlock_values h (n := 17) (C := 16) (O := 32) (d := 16) (by decide) (by decide +kernel) rfl hp.block3
  have c4 := block_values h (n := 26) (C := 32) (d := 16) (by decide +kernel) rfl hp.block4
  have c5 := downBlock_values h (n := 33) (C := 32) (O := 64) (d := 8) (by decide) (by decide +kernel) rfl hp.block5
  have c6 := block_values h (n := 42) (C := 64) (d := 8) (by decide +kernel) rfl hp.block6
  rw [v_softmax h (i := 51) (a := 51) rfl rfl, v_linear h (i := 50) (a := 50) (k := 64) rfl rfl hp.last,
    v_gap h (i := 49) (a := 49) (C := 64) (H := 8) (W := 8) rfl rfl, c6, c5, c4, c3, c2, c1, v_reluImages h (i := 2) (a := 2) rfl, c0]
  rfl

/-! ### The parameters -/

/-- All parameters are trainable, or none. -/
def Mode (training : Bool) (t : InfoTensors) : Prop := ∀ name p, t.params.lookup name = some p → p.trainable = training

theorem mode_param {t : InfoTensors} {training b : Bool} (h : Mode training t) {name : String} {s : Shape} {vals : List ℝ}
    (hp : HasParam t name s vals b) : b = training := by
  obtain ⟨g, hg, -⟩ := hp
  exact h _ _ hg

theorem affine_in (h : Values real e B input l t v) {i a u : Nat} {nm : String} (hs : l[i]? = some ⟨.linear u, nm, [a], [u]⟩) {k : Nat}
    (hk : (restAt input l a).prod = k) : ∃ p : Affine u k, p.In (t i) := by
  obtain ⟨P, fn, θ, ex, r, h1, h2⟩ := h.layer hs
  obtain ⟨hn, hsh, hval⟩ := h.arg hs (j := 0) rfl
  cases h1 with
  | one hn' hs' ho h' =>
    generalize hop : Op.linear u = op at h'
    cases h' with
    | @linear B' k' u' rest' hne hst hf hc θ tw tb hw hb =>
      obtain rfl : u' = u := by cases hop; rfl
      obtain ⟨-, rfl⟩ : B' = B ∧ rest' = _ := by simpa [batchOf] using hs'.symm.trans hsh
      obtain rfl : k' = k := by
        rw [count_cast] at hc
        omega
      exact ⟨⟨_, _⟩, ⟨_, hw⟩, _, hb⟩
    | _ => exact Op.noConfusion hop

theorem norm1_in (h : Values real e B input l t v) {i a k : Nat} {eps alpha : F32} {nm : String} {rest : List Nat}
    (hs : l[i]? = some ⟨.batchNorm1D eps alpha, nm, [a], rest⟩) (hr : restAt input l a = [k]) {training : Bool} (hm : Mode training (t i)) :
    ∃ p : NormParams k, p.In training (t i) := by
  obtain ⟨P, fn, θ, ex, r, h1, h2⟩ := h.layer hs
  obtain ⟨hn, hsh, hval⟩ := h.arg hs (j := 0) rfl
  rw [hr] at hsh
  cases h1 with
  | one hn' hs' ho h' =>
    generalize hop : Op.batchNorm1D eps alpha = op at h'
    cases h' with
    | @batchNorm1D B' k' _ _ _ _ _ θ mu var hg hb hmu hv =>
      obtain ⟨rfl, rfl⟩ : B' = B ∧ k' = k := by simpa [batchOf] using hs'.symm.trans hsh
      obtain rfl := mode_param hm hg
      exact ⟨⟨_, _, _, _⟩, ⟨hg, hb, hmu, hv⟩⟩
    | @batchNorm1DEval B' k' _ _ _ _ _ θ mu var _ hg hb hmu hv =>
      obtain ⟨rfl, rfl⟩ : B' = B ∧ k' = k := by simpa [batchOf] using hs'.symm.trans hsh
      obtain rfl := mode_param hm hg
      exact ⟨⟨_, _, _, _⟩, ⟨hg, hb, hmu, hv⟩⟩
    | _ => exact Op.noConfusion hop

theorem norm2_in (h : Values real e B input l t v) {i a C H W : Nat} {eps alpha : F32} {nm : String} {rest : List Nat}
    (hs : l[i]? = some ⟨.batchNorm2D eps alpha, nm, [a], rest⟩) (hr : restAt input l a = [C, H, W]) {training : Bool}
    (hm : Mode training (t i)) : ∃ p : NormParams C, p.In training (t i) := by
  obtain ⟨P, fn, θ, ex, r, h1, h2⟩ := h.layer hs
  obtain ⟨hn, hsh, hval⟩ := h.arg hs (j := 0) rfl
  rw [hr] at hsh
  cases h1 with
  | one hn' hs' ho h' =>
    generalize hop : Op.batchNorm2D eps alpha = op at h'
    cases h' with
    | @batchNorm2D N' C' H' W' _ _ _ _ _ _ θ mu var hg hb hmu hv =>
      obtain ⟨rfl, rfl, rfl, rfl⟩ : N' = B ∧ C' = C ∧ H' = H ∧ W' = W := by simpa [batchOf] using hs'.symm.trans hsh
      obtain rfl := mode_param hm hg
      exact ⟨⟨_, _, _, _⟩, ⟨hg, hb, hmu, hv⟩⟩
    | @batchNorm2DEval N' C' H' W' _ _ _ _ _ _ θ mu var _ hg hb hmu hv =>
      obtain ⟨rfl, rfl, rfl, rfl⟩ : N' = B ∧ C' = C ∧ H' = H ∧ W' = W := by simpa [batchOf] using hs'.symm.trans hsh
      obtain rfl := mode_param hm hg
      exact ⟨⟨_, _, _, _⟩, ⟨hg, hb, hmu, hv⟩⟩
    | _ => exact Op.noConfusion hop

theorem kernels_in (h : Values real e B input l t v) {i a C O d k p st o : Nat} {nm : String}
    (hs : l[i]? = some ⟨.convolution O (k, k) (p, p) (st, st), nm, [a], [O, o, o]⟩) (hr : restAt input l a = [C, d, d]) :
    ∃ q : Kernels O C k, q.In (t i) := by
  obtain ⟨P, fn, θ, ex, r, h1, h2⟩ := h.layer hs
  obtain ⟨hn, hsh, hval⟩ := h.arg hs (j := 0) rfl
  rw [hr] at hsh
  cases h1 with
  | one hn' hs' ho h' =>
    generalize hop : Op.convolution O (k, k) (p, p) (st, st) = op at h'
    cases h' with
    | @convolution N' C' O' a' b' ha' hb' hf hpos θ tw tb hw hb =>
      obtain ⟨o1, o2, -, -⟩ := Op.convolution.inj hop
      obtain rfl := Nat.cast_inj.1 o1
      obtain ⟨rfl, rfl, -, -⟩ : N' = B ∧ C' = C ∧ a'.size = d ∧ b'.size = d := by simpa [batchOf] using hs'.symm.trans hsh
      simp only [Prod.mk.injEq, Nat.cast_inj] at o2
      obtain ⟨⟩ := a'
      obtain ⟨⟩ := b'
      simp only at o2
      obtain ⟨rfl, rfl⟩ := o2
      exact ⟨⟨_, _⟩, ⟨_, hw⟩, _, hb⟩
    | _ => exact Op.noConfusion hop

theorem dense_in {k n : Nat} (h : Values real e B [k] (denseNet n) t v) {training : Bool} (hm : ∀ i, Mode training (t i)) :
    ∃ p : DenseParams k n, p.In training t := by
  obtain ⟨p0, h0⟩ := affine_in h (i := 0) (a := 0) (k := k) rfl (by simp [restAt])
  obtain ⟨p2, h2⟩ := norm1_in h (i := 2) (a := 2) (k := 100) rfl rfl (hm 2)
  obtain ⟨p3, h3⟩ := affine_in h (i := 3) (a := 3) (k := 100) rfl rfl
  exact ⟨⟨p0, p2, p3⟩, h0, h2, h3⟩

theorem cifar_in (h : Values real e B [3, 32, 32] cifar10Net t v) {training : Bool} (hm : ∀ i, Mode training (t i)) :
    ∃ p : CifarParams, p.In training t := by
  obtain ⟨p0, h0⟩ := kernels_in h (i := 0) (a := 0) (C := 3) (O := 64) (d := 32) (o := 32) (k := 5) (p := 2) (st := 1) rfl rfl
  obtain ⟨p3, h3⟩ := kernels_in h (i := 3) (a := 3) (C := 64) (O := 64) (d := 16) (o := 16) (k := 5) (p := 2) (st := 1) rfl rfl
  obtain ⟨p6, h6⟩ := affine_in h (i := 6) (a := 6) (k := 64 * (8 * 8)) rfl rfl
  obtain ⟨p8, h8⟩ := norm1_in h (i := 8) (a := 8) (k := 384) rfl rfl (hm 8)
  obtain ⟨p9, h9⟩ := affine_in h (i := 9) (a := 9) (k := 384) rfl rfl
  obtain ⟨p11, h11⟩ := norm1_in h (i := 11) (a := 11) (k := 192) rfl rfl (hm 11)
  obtain ⟨p12, h12⟩ := affine_in h (i := 12) (a := 12) (k := 192) rfl rfl
  exact ⟨⟨p0, p3, p6, p8, p9, p11, p12⟩, h0, h3, h6, h8, h9, h11, h12⟩

theorem convNorm_in (h : Values real e B input l t v) {i a C O s st d : Nat} {n1 n2 : String}
    (h1 : l[i]? = some ⟨conv3 O st, n1, [a], [O, d, d]⟩) (h2 : l[i + 1]? = some ⟨norm2D, n2, [i + 1], [O, d, d]⟩)
    (hr : restAt input l a = [C, s, s]) {training : Bool} (hm : ∀ i, Mode training (t i)) :
    ∃ p : ConvNorm O C, p.In training (t i) (t (i + 1)) := by
  have e1 : restAt input l (i + 1) = [O, d, d] := by simp [restAt, h1]
  obtain ⟨p, hp⟩ := kernels_in h h1 hr
  obtain ⟨q, hq⟩ := norm2_in h h2 e1 (hm (i + 1))
  exact ⟨⟨p, q⟩, hp, hq⟩

theorem block_in (h : Values real e B input l t v) {n C d : Nat} (hl : ∀ k, k < 7 → l[n + k]? = (resBlock n n C 1 d false)[k]?)
    (hr : restAt input l n = [C, d, d]) {training : Bool} (hm : ∀ i, Mode training (t i)) : ∃ p : Block C, p.In training t n := by
  have h0 : l[n]? = some ⟨conv3 C 1, "", [n], [C, d, d]⟩ := hl 0 (by decide)
  have h1 : l[n + 1]? = some ⟨norm2D, "", [n + 1], [C, d, d]⟩ := hl 1 (by decide)
  have h2 : l[n + 2]? = some ⟨.relu, "", [n + 2], [C, d, d]⟩ := hl 2 (by decide)
  have h3 : l[n + 3]? = some ⟨conv3 C 1, "", [n + 3], [C, d, d]⟩ := hl 3 (by decide)
  have h4 : l[n + 4]? = some ⟨norm2D, "", [n + 4], [C, d, d]⟩ := hl 4 (by decide)
  have e3 : restAt input l (n + 3) = [C, d, d] := by simp [restAt, h2]
  obtain ⟨p, hp⟩ := convNorm_in h h0 h1 hr hm
  obtain ⟨q, hq⟩ := convNorm_in h h3 h4 e3 hm
  exact ⟨⟨p, q⟩, hp, hq⟩

theorem downBlock_in (h : Values real e B input l t v) {n C O d : Nat} (hl : ∀ k, k < 9 → l[n + k]? = (resBlock n n O 2 d true)[k]?)
    (hr : restAt input l n = [C, 2 * d, 2 * d]) {training : Bool} (hm : ∀ i, Mode training (t i)) :
    ∃ p : DownBlock O C, p.In training t n := by
  have h0 : l[n]? = some ⟨conv3 O 2, "", [n], [O, d, d]⟩ := hl 0 (by decide)
  have h1 : l[n + 1]? = some ⟨norm2D, "", [n + 1], [O, d, d]⟩ := hl 1 (by decide)
  have h2 : l[n + 2]? = some ⟨.relu, "", [n + 2], [O, d, d]⟩ := hl 2 (by decide)
  have h3 : l[n + 3]? = some ⟨conv3 O 1, "", [n + 3], [O, d, d]⟩ := hl 3 (by decide)
  have h4 : l[n + 4]? = some ⟨norm2D, "", [n + 4], [O, d, d]⟩ := hl 4 (by decide)
  have h5 : l[n + 5]? = some ⟨conv3 O 2, "", [n], [O, d, d]⟩ := hl 5 (by decide)
  have h6 : l[n + 6]? = some ⟨norm2D, "", [n + 6], [O, d, d]⟩ := hl 6 (by decide)
  have e3 : restAt input l (n + 3) = [O, d, d] := by simp [restAt, h2]
  obtain ⟨p, hp⟩ := convNorm_in h h0 h1 hr hm
  obtain ⟨q, hq⟩ := convNorm_in h h3 h4 e3 hm
  obtain ⟨r, hr'⟩ := convNorm_in h h5 h6 hr hm
  exact ⟨⟨p, q, r⟩, hp, hq, hr'⟩

theorem resnet_in (h : Values real e B [3, 32, 32] resnet t v) {training : Bool} (hm : ∀ i, Mode training (t i)) :
    ∃ p : ResnetParams, p.In training t := by
  obtain ⟨p0, c0⟩ := convNorm_in h (i := 0) (a := 0) (C := 3) (O := 16) (s := 32) (st := 1) (d := 32) rfl rfl rfl hm
  obtain ⟨p1, c1⟩ := block_in h (n := 3) (C := 16) (d := 32) (by decide +kernel) rfl hm
  obtain ⟨p2, c2⟩ := block_in h (n := 10) (C := 16) (d := 32) (by decide +kernel) rfl hm
  obtain ⟨p3, c3⟩ := downBlock_in h (n := 17) (C := 16) (O := 32) (d := 16) (by decide +kernel) rfl hm
  obtain ⟨p4, c4⟩ := block_in h (n := 26) (C := 32) (d := 16) (by decide +kernel) rfl hm
  obtain ⟨p5, c5⟩ := downBlock_in h (n := 33) (C := 32) (O := 64) (d := 8) (by decide +kernel) rfl hm
  obtain ⟨p6, c6⟩ := block_in h (n := 42) (C := 64) (d := 8) (by decide +kernel) rfl hm
  obtain ⟨p7, c7⟩ := affine_in h (i := 50) (a := 50) (u := 100) (k := 64) rfl rfl
  exact ⟨⟨p0, p1, p2, p3, p4, p5, p6, p7⟩, c0, c1, c2, c3, c4, c5, c6, c7⟩

end

end DW.SampleL
