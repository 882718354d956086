import Verif.Lemmas.NN
/-!
# Properties C08–C10: shape inference and layer factories
-/

set_option autoImplicit false

namespace DW.Props.NNP

open DW DW.Spec

/-! ## C08 -/

/-- **C08 (proved part).** For a 4-D input, positive strides and kernels that fit into the padded
input, `MaxPooling` and `Convolution` report exactly the number of window positions along each
axis. Missing: kernels larger than the padded input, where the code is wrong
(`windowOut_refuted`). -/
theorem window_shape_partial (n c : Int) (h w kh kw ph pw sh sw : ℕ) (oc : Int)
    (hsh : 0 < sh) (hsw : 0 < sw) (hkh : kh ≤ h + 2 * ph) (hkw : kw ≤ w + 2 * pw) :
    outShape (.maxPooling (kh, kw) (ph, pw) (sh, sw)) [[n, c, h, w]] =
      .ok [n, c, windowCount h kh ph sh, windowCount w kw pw sw] ∧
    outShape (.convolution oc (kh, kw) (ph, pw) (sh, sw)) [[n, c, h, w]] =
      .ok [n, oc, windowCount h kh ph sh, windowCount w kw pw sw] := by
  constructor <;>
  simp [outShape, Out.idx, windowOut_eq hsh hkh, windowOut_eq hsw hkw]

/-- The full claim of C08 for one axis. -/
def WindowShapeCorrect : Prop :=
  ∀ size kernel padding stride : ℕ, 0 < stride →
    windowOut size kernel padding stride = .ok (windowCount size kernel padding stride : Int)

/-- **C08 is violated by the code** for kernels larger than the padded input: size 3, kernel 4,
stride 2 has no window position, but C++ division truncates towards zero and the code reports 1. -/
theorem windowOut_refuted : ¬ WindowShapeCorrect := by
  intro h
  have := h 3 4 0 2 (by decide)
  rw [windowCount_zero (by decide)] at this
  exact absurd this (by decide)

/-- Exactly which oversized kernels give which wrong answer: with `d = kernel - (size + 2*padding)`
missing cells the reported length is `1 - d / stride` (1 for `d < stride`, then 0, then negative),
although no position exists. -/
theorem windowOut_oversized (size kernel padding stride : ℕ) (hs : 0 < stride)
    (hk : size + 2 * padding < kernel) :
    windowCount size kernel padding stride = 0 ∧
    windowOut size kernel padding stride =
      .ok (1 - ((kernel - (size + 2 * padding)) / stride : ℕ)) := by
  refine ⟨windowCount_zero hk, ?_⟩
  have h1 : (stride : Int) ≠ 0 := by omega
  have h2 : ((size : Int) + 2 * padding - kernel) = -((kernel - (size + 2 * padding) : ℕ) : Int) := by omega
  simp only [windowOut, cdiv, h1, if_false, Out.bind_ok, Out.pure_def, h2]
  rw [Int.neg_tdiv, Int.tdiv_eq_ediv_of_nonneg (by omega)]
  congr 1
  push_cast
  ring

/-- The MNIST LeNet layer: 28x28, kernel 5, padding 0, stride 1 gives 24; pooling 2/2 gives 12. -/
example : windowOut 28 5 0 1 = .ok 24 ∧ windowOut 24 2 0 2 = .ok 12 ∧ windowCount 24 2 0 2 = 12 := by
  decide

/-- A zero stride is a division by zero, not an exception. -/
theorem zero_stride_undefined (n c h w : Int) (kh kw ph pw sw : Int) :
    outShape (.maxPooling (kh, kw) (ph, pw) (0, sw)) [[n, c, h, w]] = .ub .divZero := by
  simp [outShape, Out.idx, windowOut, cdiv]

/-! ## C09 -/

/-- The documented output shape of a layer for supported input shapes; `none` if the rank is not
supported. Window layers are covered by C08. -/
def documentedShape : Op → List Shape → Option Shape
  | .linear u, [n :: _ :: _] => some [n, u]
  | .relu, [s] | .softmax, [s] | .elu _, [s] | .leakyReLU _, [s] | .sigmoid, [s]
  | .dropout _, [s] => some s
  | .batchNorm1D _ _, [n :: c :: r] => some (n :: c :: r)
  | .batchNorm2D _ _, [[n, c, h, w]] => some [n, c, h, w]
  | .globalAvgPooling, [[n, c, _, _]] => some [n, c, 1, 1]
  | .add, [a, b] => if a = b then some a else none
  | _, _ => none

/-- Shapes of the tensors a layer allocates when applied (its parameters and buffers). -/
def ownTensors : Op → List Shape → List Shape
  | .linear u, [_ :: rest] => [[u, rest.prod], [u]]
  | .batchNorm1D _ _, [_ :: c :: _] | .batchNorm2D _ _, [_ :: c :: _] => [[c]]
  | .dropout _, [s] => [s]
  | _, _ => []

/-- **C09 (proved part).** Applying a layer to supported input shapes, with allocatable parameter
tensors, yields a placeholder of the documented shape. -/
theorem apply_documented_shape (e : Expr) (i : Nat) (inf : InfoImpl) (ins : List Nat)
    (shs : List Shape) (out : Shape)
    (hi : e.infos[i]? = some inf) (hlen : ins.length = inf.op.numIn)
    (hshs : e.shapes ins = .ok shs)
    (hdoc : documentedShape inf.op shs = some out)
    (hown : ∀ s ∈ ownTensors inf.op shs, Static s ∧ CountFits s)
    (hlin : ∀ u n rest, inf.op = .linear u → shs = [n :: rest] → Static rest ∧ CountFits rest) :
    ∃ ph e', Expr.apply i ins e = (.ok ph, e') ∧ (e'.phs[ph]?).map PhImpl.shape = some out := by
  have happ := Expr.apply_eq (ins := ins) (shs := shs) hi (le_of_eq hlen.symm)
    (by rw [← hlen, List.take_length]; exact hshs)
  rw [happ]
  have tens : ∀ s, Static s → CountFits s → tensorShapeOk s = .ok () := by
    intro s h1 h2
    simp [tensorShapeOk, Tensor.hasNegative_false.2 h1, Tensor.accProd_eq h1 h2]
  have hout : outShape inf.op shs = .ok out ∧ ∃ pb, initEntries inf.op shs = .ok pb := by
    revert hdoc hown hlin
    generalize inf.op = op
    intro hdoc hown hlin
    unfold documentedShape at hdoc
    split at hdoc
    case h_1 u n a rest =>
      cases hdoc
      obtain ⟨h1, h2⟩ := hlin u n (a :: rest) rfl rfl
      obtain ⟨h3, h4⟩ := hown [u, (a :: rest).prod] (by simp [ownTensors])
      obtain ⟨h5, h6⟩ := hown [u] (by simp [ownTensors])
      refine ⟨by simp [outShape, Out.idx], ?_⟩
      rw [List.prod_cons] at h3 h4
      simp only [initEntries, List.prod_cons, Tensor.accProd_eq h1 h2, Out.bind_ok, count]
      simp [xavierShapeOk, Tensor.hasNegative_false.2 h3, Tensor.accProd_eq h3 h4,
        Initializer.features, tens _ h5 h6]
    case h_2 => cases hdoc; exact ⟨rfl, _, rfl⟩
    case h_3 => cases hdoc; exact ⟨rfl, _, rfl⟩
    case h_4 => cases hdoc; exact ⟨rfl, _, rfl⟩
    case h_5 => cases hdoc; exact ⟨rfl, _, rfl⟩
    case h_6 => cases hdoc; exact ⟨rfl, _, rfl⟩
    case h_7 =>
      cases hdoc
      obtain ⟨h1, h2⟩ := hown _ (by simp [ownTensors]; rfl)
      exact ⟨rfl, by simp [initEntries, tens _ h1 h2]⟩
    case h_8 n c r =>
      cases hdoc
      obtain ⟨h1, h2⟩ := hown [c] (by simp [ownTensors])
      exact ⟨rfl, by simp [initEntries, Out.idx, tens _ h1 h2]⟩
    case h_9 n c h w =>
      cases hdoc
      obtain ⟨h1, h2⟩ := hown [c] (by simp [ownTensors])
      exact ⟨rfl, by simp [initEntries, Out.idx, tens _ h1 h2]⟩
    case h_10 => cases hdoc; exact ⟨rfl, _, rfl⟩
    case h_11 a b =>
      split at hdoc
      · cases hdoc
        rename_i hab
        exact ⟨by simp [outShape, hab], _, rfl⟩
      · simp at hdoc
    case h_12 => simp at hdoc
  obtain ⟨ho, ⟨ps, bs⟩, hin⟩ := hout
  have hinit : ∃ e1, Expr.initLayer i shs e = (.ok (), e1) ∧ e1.phs = e.phs := by
    unfold Expr.initLayer
    rw [hi]
    simp only [hin]
    exact ⟨_, rfl, rfl⟩
  obtain ⟨e1, h1, h2⟩ := hinit
  rw [M.bind_ok h1, ho]
  exact ⟨e1.phs.length, _, rfl, by simp⟩

/-- **C08, C09 (proved part), `MaxPooling`.** Applied to a 4-D placeholder it returns a placeholder whose height and width count
the window positions. -/
theorem apply_pool_shape (e : Expr) (i x : Nat) (inf : InfoImpl) (n c : Int) (h w kh kw ph pw sh sw : ℕ)
    (hi : e.infos[i]? = some inf) (hop : inf.op = .maxPooling (kh, kw) (ph, pw) (sh, sw)) (hx : e.shapes [x] = .ok [[n, c, h, w]])
    (hsh : 0 < sh) (hsw : 0 < sw) (hkh : kh ≤ h + 2 * ph) (hkw : kw ≤ w + 2 * pw) :
    ∃ y e', Expr.apply i [x] e = (.ok y, e') ∧
      (e'.phs[y]?).map PhImpl.shape = some [n, c, (windowCount h kh ph sh : Int), (windowCount w kw pw sw : Int)] := by
  have ho := (window_shape_partial n c h w kh kw ph pw sh sw 0 hsh hsw hkh hkw).1
  rw [Expr.apply_eq (ins := [x]) (shs := [[n, c, h, w]]) hi (by simp [hop, Op.numIn]) (by simpa [hop, Op.numIn] using hx)]
  have h1 : Expr.initLayer i [[(n : Int), c, h, w]] e = (.ok (), { e with infos := e.infos.set i inf }) := by
    obtain ⟨nm, op, ps, bs⟩ := inf
    obtain rfl : op = _ := hop
    simp [Expr.initLayer, hi, initEntries]
  rw [M.bind_ok h1, hop, ho]
  exact ⟨e.phs.length, _, rfl, by simp⟩

/-- **C08, C09 (proved part), `Convolution`.** The same, with `oc` channels, when its parameters can be allocated. -/
theorem apply_conv_shape (e : Expr) (i x : Nat) (inf : InfoImpl) (n c oc : Int) (h w kh kw ph pw sh sw : ℕ)
    (hi : e.infos[i]? = some inf) (hop : inf.op = .convolution oc (kh, kw) (ph, pw) (sh, sw)) (hx : e.shapes [x] = .ok [[n, c, h, w]])
    (hsh : 0 < sh) (hsw : 0 < sw) (hkh : kh ≤ h + 2 * ph) (hkw : kw ≤ w + 2 * pw)
    (hoc : 0 < oc) (hc : 0 ≤ c) (hw : CountFits [oc, c, kh, kw]) :
    ∃ y e', Expr.apply i [x] e = (.ok y, e') ∧
      (e'.phs[y]?).map PhImpl.shape = some [n, oc, (windowCount h kh ph sh : Int), (windowCount w kw pw sw : Int)] := by
  have ho := (window_shape_partial n c h w kh kw ph pw sh sw oc hsh hsw hkh hkw).2
  rw [Expr.apply_eq (ins := [x]) (shs := [[n, c, h, w]]) hi (by simp [hop, Op.numIn]) (by simpa [hop, Op.numIn] using hx)]
  have hst : Static [oc, c, (kh : Int), (kw : Int)] := by intro d hd; simp at hd; omega
  have hst' : Static [oc] := by intro d hd; simp at hd; omega
  have hf' : CountFits [oc] := by
    intro k
    rcases k with _ | k
    · simp
    · simpa using hw 1
  have hin : initEntries inf.op [[(n : Int), c, h, w]] = .ok ([("weight", [oc, c, (kh : Int), (kw : Int)]), ("bias", [oc])], []) := by
    simp [hop, initEntries, Out.idx, xavierShapeOk, tensorShapeOk, Tensor.hasNegative_false.2 hst, Tensor.hasNegative_false.2 hst',
      Tensor.accProd_eq hst hw, Tensor.accProd_eq hst' hf', Initializer.features, hoc.ne']
  have h1 : ∃ e1, Expr.initLayer i [[(n : Int), c, h, w]] e = (.ok (), e1) ∧ e1.phs = e.phs := by
    unfold Expr.initLayer
    rw [hi]
    simp only [hin]
    exact ⟨_, rfl, rfl⟩
  obtain ⟨e1, h1, h2⟩ := h1
  rw [M.bind_ok h1, hop, ho]
  exact ⟨e1.phs.length, _, rfl, by simp⟩

/-- LeNet's first layer: 6 channels, 5x5, on 28x28 images with 1 channel. -/
example : CountFits [6, 1, 5, 5] ∧ windowCount 28 5 0 1 = 24 := by
  refine ⟨fun k => ?_, by decide⟩
  rcases k with _ | _ | _ | _ | k <;> simp

/-- An input a layer does not support: wrong rank, or different shapes for `Add`. -/
def Unsupported : Op → List Shape → Prop
  | .linear _, [s] => s.length < 2
  | .batchNorm1D _ _, [s] => s.length < 2
  | .batchNorm2D _ _, [s] | .maxPooling _ _ _, [s] | .convolution _ _ _ _, [s]
  | .globalAvgPooling, [s] => s.length ≠ 4
  | .add, [a, b] => a ≠ b
  | _, _ => False

/-- The full C09 rejection claim: unsupported inputs throw. -/
def UnsupportedThrows : Prop :=
  ∀ (e : Expr) (i : Nat) (inf : InfoImpl) (ins : List Nat) (shs : List Shape),
    e.infos[i]? = some inf → ins.length = inf.op.numIn → e.shapes ins = .ok shs →
    Unsupported inf.op shs → ∃ x, (Expr.apply i ins e).1 = .throw x

/-- **C09 is violated by the code:** `init()` runs before the rank check of `outShape()`, so a
`BatchNorm2D` applied to a rank-1 placeholder reads `in_shape[1]` out of bounds. -/
theorem unsupported_refuted : ¬ UnsupportedThrows := by
  intro h
  obtain ⟨x, hx⟩ := h ⟨[⟨[10], none⟩], [], [⟨"bn", .batchNorm2D 0 0, [], []⟩]⟩ 0 _ [0] [[10]] rfl rfl rfl
    (by simp [Unsupported])
  revert hx
  cases x <;> decide

/-- Further unsupported applications with undefined behaviour instead of an exception: `Linear`
on rank 0, `BatchNorm1D` on rank 1, `Convolution` on rank 1. -/
theorem unsupported_undefined :
    initEntries (.linear 3) [[]] = .ub .oob ∧
    (∀ e a n, initEntries (.batchNorm1D e a) [[n]] = .ub .oob) ∧
    (∀ e a n, initEntries (.batchNorm2D e a) [[n]] = .ub .oob) ∧
    (∀ c k p s n, initEntries (.convolution c k p s) [[n]] = .ub .oob) :=
  ⟨rfl, fun _ _ _ => rfl, fun _ _ _ => rfl, fun _ _ _ _ _ => rfl⟩

/-- **C09 (proved part).** Unsupported inputs that do not run into out-of-bounds reads in `init`
throw: `Linear` on rank 1, `Add` on different shapes, `MaxPooling`/`GlobalAvgPooling` on any wrong
rank, `BatchNorm2D`/`Convolution` on any wrong rank of at least 2 (for allocatable parameters).
Missing: rank 0/1 inputs of layers with parameters, see `unsupported_refuted`. -/
theorem unsupported_throws_partial (e : Expr) (i : Nat) (inf : InfoImpl) (ins : List Nat)
    (shs : List Shape) (hi : e.infos[i]? = some inf) (hlen : ins.length = inf.op.numIn)
    (hshs : e.shapes ins = .ok shs) (hun : Unsupported inf.op shs)
    (hinit : ∀ u, initEntries inf.op shs ≠ .ub u) :
    ∃ x, (Expr.apply i ins e).1 = .throw x := by
  have happ := Expr.apply_eq (ins := ins) (shs := shs) hi (le_of_eq hlen.symm)
    (by rw [← hlen, List.take_length]; exact hshs)
  rw [happ]
  cases hin : initEntries inf.op shs with
  | ub u => exact absurd hin (hinit u)
  | throw x =>
    refine ⟨x, ?_⟩
    rw [M.bind_throw (s' := e) (e := x) (by simp [Expr.initLayer, hi, hin])]
  | ok pb =>
    obtain ⟨ps, bs⟩ := pb
    have h1 : ∃ e1, Expr.initLayer i shs e = (.ok (), e1) := by
      unfold Expr.initLayer
      rw [hi]
      simp only [hin]
      exact ⟨_, rfl⟩
    obtain ⟨e1, h1⟩ := h1
    rw [M.bind_ok h1]
    have hout : outShape inf.op shs = .throw .dw := by
      revert hun hin
      generalize inf.op = op
      intro hun hin
      unfold Unsupported at hun
      split at hun
      case h_1 u s =>
        rcases s with _ | ⟨a, _ | ⟨b, r⟩⟩
        · exact absurd hin (by simp [initEntries])
        · simp [outShape]
        · simp at hun
      case h_2 ep al s =>
        rcases s with _ | ⟨a, _ | ⟨b, r⟩⟩
        · exact absurd hin (by simp [initEntries, Out.idx])
        · exact absurd hin (by simp [initEntries, Out.idx])
        · simp at hun
      case h_3 | h_4 | h_5 | h_6 =>
        have : (List.length ‹Shape› == 4) = false := by simpa using hun
        simp [outShape, this]
      case h_7 => simp [outShape, hun]
      case h_8 => exact absurd hun id
    rw [hout]
    exact ⟨_, rfl⟩

/-- `MaxPooling` on rank 3, and `Convolution` on rank 3, are covered by the theorem above. -/
example : Unsupported (.maxPooling (2, 2) (0, 0) (2, 2)) [[1, 3, 8]] ∧
    initEntries (.maxPooling (2, 2) (0, 0) (2, 2)) [[1, 3, 8]] = .ok ([], []) ∧
    Unsupported (.convolution 4 (3, 3) (0, 0) (1, 1)) [[1, 3, 8]] ∧
    initEntries (.convolution 4 (3, 3) (0, 0) (1, 1)) [[1, 3, 8]] =
      .ok ([("weight", [4, 3, 3, 3]), ("bias", [4])], []) := by
  refine ⟨by simp [Unsupported], rfl, by simp [Unsupported], by decide⟩

/-! ## C10 -/

/-- **C10.** `make_layer` recovers every layer from its type string and its attribute map, in
whatever order the map holds the entries. -/
theorem makeOp_round_trip (op : Op) (attrs : Attrs)
    (hlook : ∀ k, attrs.lookup k = op.attrs.lookup k) : makeOp op.type attrs = .ok op := by
  cases op <;>
    simp [makeOp, Op.type, attrAt, hlook, Op.attrs, getInt, getFloat, getInts, List.lookup]

/-- **C10.** `make_layer(type, name, attrs, ins)` has the same outcome and effect as constructing the
layer with its public constructor and applying it. -/
theorem makeLayer_eq (op : Op) (name : String) (attrs : Attrs) (ins : List Nat)
    (hlook : ∀ k, attrs.lookup k = op.attrs.lookup k) :
    Expr.makeLayer op.type name attrs ins =
      (do let i ← Expr.layer op name; Expr.apply i ins : M Expr Nat) := by
  funext e
  simp only [Expr.makeLayer, makeOp_round_trip op attrs hlook]
  rfl

/-- **C10.** A type string that no layer has throws, and nothing is created. -/
theorem makeLayer_unknown (t name : String) (attrs : Attrs) (ins : List Nat) (e : Expr)
    (ht : ∀ op : Op, op.type ≠ t) : Expr.makeLayer t name attrs ins e = (.throw .dw, e) := by
  have h : makeOp t attrs = .throw .dw := by
    have h1 := ht (.linear 0)
    have h2 := ht .relu
    have h3 := ht .softmax
    have h4 := ht (.batchNorm1D 0 0)
    have h5 := ht (.elu 0)
    have h6 := ht (.maxPooling (0, 0) (0, 0) (0, 0))
    have h7 := ht (.convolution 0 (0, 0) (0, 0) (0, 0))
    have h8 := ht (.leakyReLU 0)
    have h9 := ht .sigmoid
    have h10 := ht (.dropout 0)
    have h11 := ht .globalAvgPooling
    have h12 := ht (.batchNorm2D 0 0)
    have h13 := ht .add
    simp only [Op.type, ne_eq] at *
    simp only [makeOp, Ne.symm h1, Ne.symm h2, Ne.symm h3, Ne.symm h4, Ne.symm h5, Ne.symm h6,
      Ne.symm h7, Ne.symm h8, Ne.symm h9, Ne.symm h10, Ne.symm h11, Ne.symm h12, Ne.symm h13, if_false]
  simp [Expr.makeLayer, M.bind_apply, h]

/-- **C10.** Different layers are never confused: type and attributes determine the layer. -/
theorem type_attrs_inj (a b : Op) (ht : a.type = b.type) (ha : a.attrs = b.attrs) : a = b := by
  have h1 := makeOp_round_trip a a.attrs (fun _ => rfl)
  have h2 := makeOp_round_trip b b.attrs (fun _ => rfl)
  rw [ht, ha, h2] at h1
  exact (Out.ok.inj h1).symm

/-- C10 on a convolution whose attribute map is stored in another order. -/
example : makeOp "Convolution" [("stride", .ints 1 2), ("padding", .ints 0 0), ("kernel", .ints 3 5),
    ("out_channels", .int 16)] = .ok (.convolution 16 (3, 5) (0, 0) (1, 2)) := rfl

end DW.Props.NNP
