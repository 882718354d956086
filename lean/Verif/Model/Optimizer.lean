import Verif.Base.Outcome
import Mathlib.Analysis.SpecialFunctions.Sqrt
/-!
# Optimizers (src/optimizer.cpp, include/deepworks/optimizer.hpp)

Elements are real numbers: rounding is not modelled. A parameter is an object shared between the
model and every map that mentions it, so a parameter map is a list of (name, object number) in the
map's iteration order, and the objects are in a store.
-/

namespace DW

/-- A tensor as a value: its shape and its `total()` elements. -/
structure Buf where
  shape : List Int
  vals : List ℝ

/-- `Parameter::Impl` (src/model/parameter.cpp:4-9). -/
structure Parameter where
  data : Buf
  grad : Buf
  trainable : Bool

namespace Optim

noncomputable section

/-- `ParamMap` in iteration order: name and object. -/
abbrev ParamMap := List (String × Nat)

/-- All parameter objects, and the fields of the optimizer. -/
structure Opt (σ : Type) where
  store : List Parameter
  aux : σ

/-- `x.array() = f(x.array(), g.array())` on two Eigen maps of `g`'s size. -/
def upd2 (f : ℝ → ℝ → ℝ) (xs gs : List ℝ) : Out (List ℝ) :=
  if gs.length ≤ xs.length then .ok (List.zipWith f (xs.take gs.length) gs ++ xs.drop gs.length)
  else .ub .oob

/-- The loop shared by the three `step` functions (src/optimizer.cpp:16-21,48-53,89-94): for each
trainable parameter check the shapes and store the weights `body` computes. -/
def eachTrainable {σ : Type} (body : String → Parameter → M (Opt σ) (List ℝ)) : ParamMap → M (Opt σ) Unit
  | [] => pure ()
  | (name, id) :: rest => do
    let s ← M.get
    match s.store[id]? with
    | none => M.lift (.ub .freed)
    | some p =>
      if p.trainable then do
        M.check (p.grad.shape == p.data.shape)
        let w ← body name p
        M.modify fun s => { s with store := s.store.set id { p with data := { p.data with vals := w } } }
        eachTrainable body rest
      else eachTrainable body rest

/-- `SGD::step` (src/optimizer.cpp:15-31); the only field is the learning rate (:13). -/
def sgdBody (_ : String) (p : Parameter) : M (Opt ℝ) (List ℝ) := do
  let s ← M.get
  M.lift (upd2 (fun w g => w - s.aux * g) p.data.vals p.grad.vals)

def sgdStep (params : ParamMap) : M (Opt ℝ) Unit := eachTrainable sgdBody params

/-- A map from parameter names to tensors. -/
abbrev Table := String → Option (List ℝ)

def Table.set (t : Table) (k : String) (v : List ℝ) : Table := fun k' => if k' = k then some v else t k'

/-- `emplace(name, Tensor::zeros(param.data().shape()))`; `emplace` keeps an existing entry. -/
def emplaceZeros (store : List Parameter) (name : String) (id : Nat) (t : Table) : Table :=
  match t name, store[id]? with
  | none, some p => t.set name (List.replicate p.data.vals.length 0)
  | _, _ => t

/-- The loop over the parameters in the constructors (src/optimizer.cpp:42-44,80-83). -/
def zerosTable (store : List Parameter) : ParamMap → Table → Table
  | [], t => t
  | (name, id) :: rest, t =>
    zerosTable store rest (emplaceZeros store name id t)

/-- `m_velocities.at(name)`: throws `std::out_of_range` if the key is missing. -/
def tableAt {σ : Type} (t : Table) (k : String) : M σ (List ℝ) :=
  match t k with
  | some v => pure v
  | none => M.lift (.throw .outOfRange)

/-- Fields of `SGDMomentum`. -/
structure Momentum where
  lr : ℝ
  gamma : ℝ
  vel : Table

/-- `SGDMomentum::SGDMomentum` (src/optimizer.cpp:41-45). -/
def Momentum.create (store : List Parameter) (params : ParamMap) (lr gamma : ℝ) : Momentum :=
  ⟨lr, gamma, zerosTable store params fun _ => none⟩

/-- `SGDMomentum::step` (src/optimizer.cpp:47-66). -/
def momentumBody (name : String) (p : Parameter) : M (Opt Momentum) (List ℝ) := do
  let s ← M.get
  let v ← tableAt s.aux.vel name
  let v' ← M.lift (upd2 (fun v g => s.aux.gamma * v + s.aux.lr * g) v p.grad.vals)
  M.modify fun s => { s with aux := { s.aux with vel := s.aux.vel.set name v' } }
  M.lift (upd2 (fun w v => w - v) p.data.vals (v'.take p.grad.vals.length))

def momentumStep (params : ParamMap) : M (Opt Momentum) Unit := eachTrainable momentumBody params

/-- Fields of `Adam`. -/
structure Adam where
  lr : ℝ
  beta0 : ℝ
  beta1 : ℝ
  eps : ℝ
  t : Nat
  mean : Table
  var : Table

/-- `Adam::Adam` (src/optimizer.cpp:76-84). -/
def Adam.create (store : List Parameter) (params : ParamMap) (lr beta0 beta1 eps : ℝ) (t : Nat) : Adam :=
  ⟨lr, beta0, beta1, eps, t, zerosTable store params fun _ => none, zerosTable store params fun _ => none⟩

/-- The loop body of `Adam::step` (src/optimizer.cpp:97-113). `mean_hat` and `variance_hat` are
unevaluated Eigen expressions over the already updated moments. -/
def adamBody (name : String) (p : Parameter) : M (Opt Adam) (List ℝ) := do
  let s ← M.get
  let a := s.aux
  let m ← tableAt a.mean name
  let v ← tableAt a.var name
  let m' ← M.lift (upd2 (fun m g => a.beta0 * m + (1 - a.beta0) * g) m p.grad.vals)
  let v' ← M.lift (upd2 (fun v g => a.beta1 * v + (1 - a.beta1) * (g * g)) v p.grad.vals)
  M.modify fun s => { s with aux := { s.aux with mean := s.aux.mean.set name m', var := s.aux.var.set name v' } }
  let n := p.grad.vals.length
  let meanHat := (m'.take n).map fun m => m / (1 - a.beta0 ^ a.t)
  let varHat := (v'.take n).map fun v => v / (1 - a.beta1 ^ a.t)
  M.lift (upd2 (fun w d => w - d) p.data.vals
    (List.zipWith (fun mh vh => a.lr * mh / (Real.sqrt vh + a.eps)) meanHat varHat))

/-- `Adam::step` (src/optimizer.cpp:86-115). -/
def adamStep (params : ParamMap) : M (Opt Adam) Unit := do
  M.modify fun s => { s with aux := { s.aux with t := s.aux.t + 1 } }
  eachTrainable adamBody params

/-! `get_lr` and `set_lr` (src/optimizer.cpp:33-39,68-74,117-123). -/

def sgdGetLr : M (Opt ℝ) ℝ := do let s ← M.get; pure s.aux
def sgdSetLr (lr : ℝ) : M (Opt ℝ) Unit := M.modify fun s => { s with aux := lr }
def momentumGetLr : M (Opt Momentum) ℝ := do let s ← M.get; pure s.aux.lr
def momentumSetLr (lr : ℝ) : M (Opt Momentum) Unit := M.modify fun s => { s with aux := { s.aux with lr := lr } }
def adamGetLr : M (Opt Adam) ℝ := do let s ← M.get; pure s.aux.lr
def adamSetLr (lr : ℝ) : M (Opt Adam) Unit := M.modify fun s => { s with aux := { s.aux with lr := lr } }

end

end Optim

end DW
