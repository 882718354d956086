import Verif.Spec.SampleModels
import Verif.Lemmas.NN
import Verif.Props.Graph
/-!
# Making the networks of the samples
-/

set_option autoImplicit false

namespace DW.SampleL

open DW DW.Spec DW.Samples

variable {e : Expr} {B : Nat} {input : List Nat} {l : List Step}

theorem net_phShape (h : IsNet e B input l) {x : Nat} (hx : x ≤ l.length) : phShape e x = batchOf B (restAt input l x) := by
  unfold phShape
  rw [h.phs]
  cases x with
  | zero => rfl
  | succ x =>
    have hx : x < l.length := hx
    simp [restAt, List.getElem?_eq_getElem hx]

theorem net_phs_length (h : IsNet e B input l) : e.phs.length = l.length + 1 := by rw [h.phs]; simp
theorem net_calls_length (h : IsNet e B input l) : e.calls.length = l.length := by rw [h.calls]; simp
theorem net_infos_length (h : IsNet e B input l) : e.infos.length = l.length := by
  have := congrArg List.length h.infos
  simpa using this

theorem net_callOf_zero (h : IsNet e B input l) : e.callOf 0 = none := by
  unfold Expr.callOf; rw [h.phs]; rfl

theorem net_callOf (h : IsNet e B input l) {i : Nat} (hi : i < l.length) : e.callOf (i + 1) = some i := by
  unfold Expr.callOf
  rw [h.phs]
  simp [List.getElem?_eq_getElem hi]

theorem net_callOf_inv (h : IsNet e B input l) {x c : Nat} (hc : e.callOf x = some c) : x = c + 1 ∧ c < l.length := by
  cases x with
  | zero => rw [net_callOf_zero h] at hc; cases hc
  | succ x =>
    have hx : x < l.length := by
      by_contra hx
      unfold Expr.callOf at hc
      rw [h.phs, List.getElem?_cons_succ, List.getElem?_eq_none (by simp; omega)] at hc
      cases hc
    rw [net_callOf h hx] at hc
    obtain rfl := Option.some.inj hc
    exact ⟨rfl, hx⟩

theorem net_callArgs (h : IsNet e B input l) {i : Nat} {s : Step} (hs : l[i]? = some s) : e.callArgs i = s.args := by
  unfold Expr.callArgs
  rw [h.calls]
  simp [hs]

theorem net_callInfo (h : IsNet e B input l) {i : Nat} (hi : i < l.length) : e.callInfo i = i := by
  unfold Expr.callInfo
  rw [h.calls]
  simp [List.getElem?_eq_getElem hi]

theorem net_argsOf (h : IsNet e B input l) {i : Nat} {s : Step} (hs : l[i]? = some s) : e.argsOf (i + 1) = s.args := by
  have hi := (List.getElem?_eq_some_iff.1 hs).1
  unfold Expr.argsOf
  rw [net_callOf h hi]
  exact net_callArgs h hs

theorem net_info (h : IsNet e B input l) {i : Nat} {s : Step} (hs : l[i]? = some s) :
    (infoOf e i).name = s.name ∧ (infoOf e i).op = s.op := by
  have h1 : (e.infos.map fun i => (i.name, i.op))[i]? = some (s.name, s.op) := by rw [h.infos, List.getElem?_map, hs]; rfl
  rw [List.getElem?_map] at h1
  obtain ⟨inf, h2, h3⟩ := Option.map_eq_some_iff.1 h1
  unfold infoOf
  rw [h2]
  exact Prod.mk.inj h3

/-! ### One more layer -/

/-- The layer can be applied to results of the given shapes, which is decided by running it for one sample. -/
def CanUse (input : List Nat) (l : List Step) (s : Step) : Prop :=
  s.args.length = s.op.numIn ∧ (∀ a ∈ s.args, a ≤ l.length) ∧ (∀ p, s.op ≠ .dropout p) ∧
  outShape s.op (s.args.map fun a => batchOf 1 (restAt input l a)) = .ok (batchOf 1 s.rest) ∧
  ∃ r, initEntries s.op (s.args.map fun a => batchOf 1 (restAt input l a)) = .ok r

theorem batchOf_tail {B : Nat} {r r' : List Nat} : batchOf B r = batchOf B r' ↔ r = r' := by
  unfold batchOf
  constructor
  · intro h
    exact List.map_injective_iff.2 (fun a b h => by exact_mod_cast h) (List.cons.inj h).2
  · rintro rfl; rfl

/-- The batch size does not matter for the rest of the shape. -/
theorem outShape_batch (op : Op) (rs : List (List Nat)) (r : List Nat)
    (h : outShape op (rs.map (batchOf 1)) = .ok (batchOf 1 r)) (B : Nat) : outShape op (rs.map (batchOf B)) = .ok (batchOf B r) := by
  rcases rs with _ | ⟨a, _ | ⟨b, _ | ⟨c, rs⟩⟩⟩
  · cases op <;> cases h
  · cases op
    case add => cases h
    case linear =>
      simp only [List.map_cons, List.map_nil, outShape, Out.bind_eq_ok] at h ⊢
      obtain ⟨u, h1, n, h2, h3⟩ := h
      cases h2
      refine ⟨u, h1, _, rfl, ?_⟩
      have := (List.cons.inj (Out.ok.inj h3)).2
      simp only [Out.pure_def, batchOf, ← this]
    case maxPooling =>
      simp only [List.map_cons, List.map_nil, outShape, Out.bind_eq_ok] at h ⊢
      obtain ⟨u, h1, n, h2, k, h3, n', h4, k', h5, n0, h6, n1, h7, h8⟩ := h
      cases h6
      refine ⟨u, h1, n, h2, k, h3, n', h4, k', h5, _, rfl, n1, h7, ?_⟩
      have := (List.cons.inj (Out.ok.inj h8)).2
      simp only [Out.pure_def, batchOf, ← this]
    case convolution =>
      simp only [List.map_cons, List.map_nil, outShape, Out.bind_eq_ok] at h ⊢
      obtain ⟨u, h1, n, h2, k, h3, n', h4, k', h5, n0, h6, h8⟩ := h
      cases h6
      refine ⟨u, h1, n, h2, k, h3, n', h4, k', h5, _, rfl, ?_⟩
      have := (List.cons.inj (Out.ok.inj h8)).2
      simp only [Out.pure_def, batchOf, ← this]
    case globalAvgPooling =>
      simp only [List.map_cons, List.map_nil, outShape, Out.bind_eq_ok] at h ⊢
      obtain ⟨u, h1, n0, h6, n1, h7, h8⟩ := h
      cases h6
      refine ⟨u, h1, _, rfl, n1, h7, ?_⟩
      have := (List.cons.inj (Out.ok.inj h8)).2
      simp only [Out.pure_def, batchOf, ← this]
    case batchNorm2D =>
      simp only [List.map_cons, List.map_nil, outShape, Out.bind_eq_ok] at h ⊢
      obtain ⟨u, h1, h8⟩ := h
      refine ⟨u, h1, ?_⟩
      rw [batchOf_tail.1 (Out.ok.inj h8)]
      rfl
    all_goals
      have := batchOf_tail.1 (Out.ok.inj h)
      rw [this]
      rfl
  · cases op
    case add =>
      simp only [List.map_cons, List.map_nil, outShape] at h ⊢
      by_cases hab : a = b
      · subst hab
        simp only [if_true] at h ⊢
        rw [batchOf_tail.1 (Out.ok.inj h)]
        rfl
      · rw [if_neg (by rw [batchOf_tail]; exact hab)] at h
        cases h
    all_goals cases h
  · cases op <;> cases h

theorem initEntries_batch (op : Op) (hop : ∀ p, op ≠ .dropout p) (rs : List (List Nat)) (B : Nat) :
    initEntries op (rs.map (batchOf B)) = initEntries op (rs.map (batchOf 1)) := by
  rcases rs with _ | ⟨a, _ | ⟨b, rs⟩⟩
  · rfl
  · cases op
    case dropout p => exact absurd rfl (hop p)
    all_goals rfl
  · cases op <;> rfl

theorem shapes_ok (h : IsNet e B input l) {xs : List Nat} (hx : ∀ a ∈ xs, a ≤ l.length) :
    e.shapes xs = .ok (xs.map fun a => batchOf B (restAt input l a)) := by
  unfold Expr.shapes
  induction xs with
  | nil => rfl
  | cons a xs ih =>
    rw [List.mapM_cons, ih fun b hb => hx b (List.mem_cons_of_mem _ hb)]
    have ha : a ≤ l.length := hx a List.mem_cons_self
    have hl : a < e.phs.length := by rw [net_phs_length h]; omega
    have := net_phShape h ha
    unfold phShape at this
    rw [List.getElem?_eq_getElem hl] at this
    simp only [Out.idx, List.getElem?_eq_getElem hl, Out.bind_ok, Out.pure_def, List.map_cons]
    simpa using this

theorem use_step (h : IsNet e B input l) {s : Step} (hs : CanUse input l s) :
    ∃ e', use s.op s.name s.args e = (.ok (l.length + 1), e') ∧ IsNet e' B input (l ++ [s]) := by
  obtain ⟨h1, h2, h3, h4, ⟨ps, bs⟩, h5⟩ := hs
  let e₁ : Expr := { e with infos := e.infos ++ [{ name := s.name, op := s.op }] }
  have hl : e.infos.length = l.length := net_infos_length h
  have n1 : IsNet e₁ B input l → True := fun _ => trivial
  have hsh : e₁.shapes s.args = .ok (s.args.map fun a => batchOf B (restAt input l a)) := by
    have := shapes_ok h h2
    exact this
  have hi : e₁.infos[l.length]? = some { name := s.name, op := s.op } := by
    show (e.infos ++ _)[l.length]? = _
    rw [← hl]; simp
  have h4' := outShape_batch s.op (s.args.map (restAt input l)) s.rest (by simpa [List.map_map, Function.comp_def] using h4) B
  have h5' := initEntries_batch s.op h3 (s.args.map (restAt input l)) B
  rw [List.map_map] at h4'
  rw [List.map_map, List.map_map] at h5'
  have h5'' : initEntries s.op (s.args.map (batchOf B ∘ restAt input l)) = .ok (ps, bs) := h5'.trans h5
  have ha := Expr.apply_eq hi (ins := s.args) (by simp [h1]) (shs := s.args.map fun a => batchOf B (restAt input l a)) (by
    rw [List.take_of_length_le (by simp [h1])]; exact hsh)
  have hr : use s.op s.name s.args e = Expr.apply l.length s.args e₁ := by
    unfold use
    rw [M.bind_apply]
    simp only [Expr.layer, hl]
    rfl
  have hcl : e.calls.length = l.length := net_calls_length h
  have hpl : e.phs.length = l.length + 1 := net_phs_length h
  rw [hr, ha]
  simp only [M.bind_apply, Expr.initLayer, hi]
  have h5''' : initEntries s.op (s.args.map fun a => batchOf B (restAt input l a)) = .ok (ps, bs) := h5''
  have h4'' : outShape s.op (s.args.map fun a => batchOf B (restAt input l a)) = .ok (batchOf B s.rest) := h4'
  simp only [h5''', h4'', M.lift_apply, M.get_apply, M.set_apply, M.pure_apply]
  refine ⟨_, Prod.ext (congrArg Out.ok hpl) rfl, ?_, ?_, ?_⟩
  · show e.phs ++ _ = _
    rw [h.phs, List.mapIdx_concat, List.cons_append]
    rw [show e₁.calls.length = l.length from hcl]
  · show e.calls ++ _ = _
    rw [h.calls, List.mapIdx_concat, List.take_of_length_le (by simp [h1])]
  · show List.map _ ((e.infos ++ _).set l.length _) = _
    rw [← hl, List.set_append_right _ _ (le_refl _)]
    simp [h.infos]

theorem reachable_use {op : Op} {name : String} {args : List Nat} (h : Reachable e) : Reachable (use op name args e).2 :=
  Props.GraphP.reachable_bind (.layer op name h) fun _ _ _ h => .apply _ args h

/-- `CanUse`, decided. -/
def canUse (input : List Nat) (l : List Step) (s : Step) : Bool :=
  s.args.length == s.op.numIn && s.args.all (· ≤ l.length) && (match s.op with | .dropout _ => false | _ => true) &&
  decide (outShape s.op (s.args.map fun a => batchOf 1 (restAt input l a)) = .ok (batchOf 1 s.rest)) &&
  (match initEntries s.op (s.args.map fun a => batchOf 1 (restAt input l a)) with | .ok _ => true | _ => false)

theorem canUse_iff {s : Step} (h : canUse input l s = true) : CanUse input l s := by
  simp only [canUse, Bool.and_eq_true, decide_eq_true_eq, beq_iff_eq, List.all_eq_true] at h
  obtain ⟨⟨⟨⟨h1, h2⟩, h3⟩, h4⟩, h5⟩ := h
  refine ⟨h1, h2, fun p hp => ?_, h4, ?_⟩
  · rw [hp] at h3; cases h3
  · cases hi : initEntries s.op (s.args.map fun a => batchOf 1 (restAt input l a)) with
    | ok r => exact ⟨r, rfl⟩
    | throw x => rw [hi] at h5; cases h5
    | ub x => rw [hi] at h5; cases h5

/-- A program leaves the network `l'` and returns `r`, if it is run when there is the network `l`. -/
def Makes {α : Type} (B : Nat) (input : List Nat) (p : M Expr α) (l l' : List Step) (r : α) : Prop :=
  ∀ e, Reachable e → IsNet e B input l → ∃ e', p e = (.ok r, e') ∧ Reachable e' ∧ IsNet e' B input l'

theorem makes_use (B : Nat) {s : Step} (hs : canUse input l s = true) :
    Makes B input (use s.op s.name s.args) l (l ++ [s]) (l.length + 1) := fun e hr h => by
  obtain ⟨e', h1, h2⟩ := use_step h (canUse_iff hs)
  have := reachable_use (op := s.op) (name := s.name) (args := s.args) hr
  rw [h1] at this
  exact ⟨e', h1, this, h2⟩

theorem makes_bind {α β : Type} {p : M Expr α} {f : α → M Expr β} {l₁ l₂ : List Step} {a : α} {b : β} (hp : Makes B input p l l₁ a)
    (hf : Makes B input (f a) l₁ l₂ b) : Makes B input (p >>= f) l l₂ b := fun e hr h => by
  obtain ⟨e₁, h1, h2, h3⟩ := hp e hr h
  obtain ⟨e₂, h4, h5, h6⟩ := hf e₁ h2 h3
  exact ⟨e₂, by rw [M.bind_apply, h1]; exact h4, h5, h6⟩

theorem makes_pure {α : Type} (a : α) : Makes B input (pure a) l l a := fun e hr h => ⟨e, rfl, hr, h⟩

theorem makes_cast {α : Type} {p : M Expr α} {l₁ l₂ : List Step} {a b : α} (h : Makes B input p l l₁ a) (hl : l₁ = l₂) (hab : a = b) :
    Makes B input p l l₂ b := hl ▸ hab ▸ h

/-- One more layer, then the rest of the program. -/
theorem makes_step {α : Type} (s : Step) {f : Nat → M Expr α} {l₂ : List Step} {a : α} (hs : canUse input l s = true)
    (hf : Makes B input (f (l.length + 1)) (l ++ [s]) l₂ a) : Makes B input (use s.op s.name s.args >>= f) l l₂ a :=
  makes_bind (makes_use B hs) hf

/-- The input, then the rest of the program. -/
theorem makes_start {α : Type} {f : Nat → M Expr α} {r : α} (h : Makes B input (f 0) [] l r) :
    ∃ e, (Expr.placeholder (batchOf B input) >>= f) {} = (.ok r, e) ∧ Reachable e ∧ IsNet e B input l := by
  obtain ⟨e', h4, h5, h6⟩ := h (Expr.placeholder (batchOf B input) {}).2 (.placeholder _ .empty) ⟨rfl, rfl, rfl⟩
  exact ⟨e', by rw [M.bind_apply]; exact h4, h5, h6⟩

theorem buildMNIST_net (B : Nat) : ∃ e, buildMNIST B {} = (.ok (0, 5), e) ∧ Reachable e ∧ IsNet e B [784] (denseNet 10) := by
  refine makes_start (input := [784]) ?_
  refine makes_step ⟨.linear 100, "linear0", [0], [100]⟩ (by decide +kernel) ?_
  refine makes_step ⟨.relu, "relu1", [1], [100]⟩ (by decide +kernel) ?_
  refine makes_step ⟨norm1D, "batchnorm1d", [2], [100]⟩ (by decide +kernel) ?_
  refine makes_step ⟨.linear 10, "linear2", [3], [10]⟩ (by decide +kernel) ?_
  exact makes_step ⟨.softmax, "softmax3", [4], [10]⟩ (by decide +kernel) (makes_pure _)

theorem buildIris_net (B : Nat) : ∃ e, buildIris B {} = (.ok (0, 5), e) ∧ Reachable e ∧ IsNet e B [4] (denseNet 3) := by
  refine makes_start (input := [4]) ?_
  refine makes_step ⟨.linear 100, "linear0", [0], [100]⟩ (by decide +kernel) ?_
  refine makes_step ⟨.relu, "relu1", [1], [100]⟩ (by decide +kernel) ?_
  refine makes_step ⟨norm1D, "batchnorm1d", [2], [100]⟩ (by decide +kernel) ?_
  refine makes_step ⟨.linear 3, "linear2", [3], [3]⟩ (by decide +kernel) ?_
  exact makes_step ⟨.softmax, "softmax3", [4], [3]⟩ (by decide +kernel) (makes_pure _)

theorem buildCIFAR10_net (B : Nat) : ∃ e, buildCIFAR10 B {} = (.ok (0, 14), e) ∧ Reachable e ∧ IsNet e B [3, 32, 32] cifar10Net := by
  refine makes_start (input := [3, 32, 32]) ?_
  refine makes_step ⟨conv5, "conv1", [0], [64, 32, 32]⟩ (by decide +kernel) ?_
  refine makes_step ⟨pool2, "pool2", [1], [64, 16, 16]⟩ (by decide +kernel) ?_
  refine makes_step ⟨.relu, "relu3", [2], [64, 16, 16]⟩ (by decide +kernel) ?_
  refine makes_step ⟨conv5, "conv4", [3], [64, 16, 16]⟩ (by decide +kernel) ?_
  refine makes_step ⟨pool2, "pool5", [4], [64, 8, 8]⟩ (by decide +kernel) ?_
  refine makes_step ⟨.relu, "relu6", [5], [64, 8, 8]⟩ (by decide +kernel) ?_
  refine makes_step ⟨.linear 384, "linear7", [6], [384]⟩ (by decide +kernel) ?_
  refine makes_step ⟨.relu, "relu8", [7], [384]⟩ (by decide +kernel) ?_
  refine makes_step ⟨norm1D, "batchnorm1d9", [8], [384]⟩ (by decide +kernel) ?_
  refine makes_step ⟨.linear 192, "linear10", [9], [192]⟩ (by decide +kernel) ?_
  refine makes_step ⟨.relu, "relu11", [10], [192]⟩ (by decide +kernel) ?_
  refine makes_step ⟨norm1D, "batchnorm1d12", [11], [192]⟩ (by decide +kernel) ?_
  refine makes_step ⟨.linear 10, "linear13", [12], [10]⟩ (by decide +kernel) ?_
  exact makes_step ⟨.softmax, "softmax14", [13], [10]⟩ (by decide +kernel) (makes_pure _)

/-- All of the layers can be applied, one after the other. -/
def canAll (input : List Nat) : List Step → List Step → Bool
  | _, [] => true
  | l, s :: ss => canUse input l s && canAll input (l ++ [s]) ss

theorem makes_next {α : Type} {s : Step} {ss : List Step} {f : Nat → M Expr α} {a : α} (hs : canAll input l (s :: ss) = true)
    (hf : canAll input (l ++ [s]) ss = true → Makes B input (f (l.length + 1)) (l ++ [s]) ((l ++ [s]) ++ ss) a) :
    Makes B input (use s.op s.name s.args >>= f) l (l ++ s :: ss) a := by
  rw [canAll, Bool.and_eq_true] at hs
  have := makes_step (B := B) s hs.1 (hf hs.2)
  rwa [List.append_assoc] at this

theorem makes_last {s : Step} (hs : canAll input l [s] = true) : Makes B input (use s.op s.name s.args) l (l ++ [s]) (l.length + 1) := by
  rw [canAll, Bool.and_eq_true] at hs
  exact makes_use B hs.1

theorem makes_block {x c stride d : Nat} (h : canAll input l (resBlock x l.length c stride d false) = true) :
    Makes B input (createBasicBlock x c stride false) l (l ++ resBlock x l.length c stride d false) (l.length + 7) := by
  unfold createBasicBlock
  refine makes_next h fun h => ?_
  refine makes_next h fun h => ?_
  rw [List.length_append]
  refine makes_next h fun h => ?_
  rw [List.length_append, List.length_append]
  refine makes_next h fun h => ?_
  rw [List.length_append, List.length_append, List.length_append]
  refine makes_next h fun h => ?_
  rw [List.length_append, List.length_append, List.length_append, List.length_append]
  refine makes_bind (makes_pure x) ?_
  refine makes_next h fun h => ?_
  rw [List.length_append, List.length_append, List.length_append, List.length_append, List.length_append]
  have := makes_last (B := B) h
  rwa [List.length_append, List.length_append, List.length_append, List.length_append, List.length_append, List.length_append] at this

theorem makes_block_down {x c stride d : Nat} (h : canAll input l (resBlock x l.length c stride d true) = true) :
    Makes B input (createBasicBlock x c stride true) l (l ++ resBlock x l.length c stride d true) (l.length + 9) := by
  unfold createBasicBlock
  refine makes_next h fun h => ?_
  refine makes_next h fun h => ?_
  rw [List.length_append]
  refine makes_next h fun h => ?_
  rw [List.length_append, List.length_append]
  refine makes_next h fun h => ?_
  rw [List.length_append, List.length_append, List.length_append]
  refine makes_next h fun h => ?_
  rw [List.length_append, List.length_append, List.length_append, List.length_append]
  refine makes_next h fun h => ?_
  rw [List.length_append, List.length_append, List.length_append, List.length_append, List.length_append]
  refine makes_next h fun h => ?_
  rw [List.length_append, List.length_append, List.length_append, List.length_append, List.length_append, List.length_append]
  refine makes_next h fun h => ?_
  rw [List.length_append, List.length_append, List.length_append, List.length_append, List.length_append, List.length_append, List.length_append]
  have := makes_last (B := B) h
  rwa [List.length_append, List.length_append, List.length_append, List.length_append, List.length_append, List.length_append, List.length_append, List.length_append] at this

/-- The sample's `make_layer`, when the first block needs no convolution of the shortcut. -/
theorem makes_stage {x c d : Nat} {r : List Nat} (hx : x ≤ l.length) (hr : restAt input l x = c :: r)
    (h₁ : canAll input l (resBlock x l.length c 1 d false) = true)
    (h₂ : canAll input (l ++ resBlock x l.length c 1 d false) (resBlock (l.length + 7) (l.length + 7) c 1 d false) = true) :
    Makes B input (makeStage x c 1) l
      (l ++ resBlock x l.length c 1 d false ++ resBlock (l.length + 7) (l.length + 7) c 1 d false) (l.length + 14) := fun e hre h => by
  have hsh := shapes_ok h (xs := [x]) (by simpa using hx)
  have : Makes B input (do
      let y ← createBasicBlock x c 1 false
      createBasicBlock y c 1 false) l
      (l ++ resBlock x l.length c 1 d false ++ resBlock (l.length + 7) (l.length + 7) c 1 d false) (l.length + 14) := by
    refine makes_bind (makes_block h₁) ?_
    have hl : (l ++ resBlock x l.length c 1 d false).length = l.length + 7 := by simp [resBlock]
    have := makes_block (B := B) (x := l.length + 7) (c := c) (stride := 1) (d := d) (input := input)
      (l := l ++ resBlock x l.length c 1 d false) (by rw [hl]; exact h₂)
    rwa [hl] at this
  obtain ⟨e', h1, h2⟩ := this e hre h
  refine ⟨e', ?_, h2⟩
  rw [← h1]
  unfold makeStage
  rw [M.bind_apply, M.get_apply]
  simp only
  rw [M.bind_apply, hsh, M.lift_apply]
  simp only [List.map_cons, List.map_nil, hr]
  rw [M.bind_apply, M.lift_apply]
  have : (do Out.idx (← Out.idx [batchOf B (c :: r)] 0) 1 : Out Int) = .ok c := rfl
  rw [this]
  simp

/-- The sample's `make_layer`, when the first block changes the number of pixels. -/
theorem makes_stage_down {x c d : Nat} {c₀ : Nat} {r : List Nat} (hx : x ≤ l.length) (hr : restAt input l x = c₀ :: r)
    (h₁ : canAll input l (resBlock x l.length c 2 d true) = true)
    (h₂ : canAll input (l ++ resBlock x l.length c 2 d true) (resBlock (l.length + 9) (l.length + 9) c 1 d false) = true) :
    Makes B input (makeStage x c 2) l
      (l ++ resBlock x l.length c 2 d true ++ resBlock (l.length + 9) (l.length + 9) c 1 d false) (l.length + 16) := fun e hre h => by
  have hsh := shapes_ok h (xs := [x]) (by simpa using hx)
  have : Makes B input (do
      let y ← createBasicBlock x c 2 true
      createBasicBlock y c 1 false) l
      (l ++ resBlock x l.length c 2 d true ++ resBlock (l.length + 9) (l.length + 9) c 1 d false) (l.length + 16) := by
    refine makes_bind (makes_block_down h₁) ?_
    have hl : (l ++ resBlock x l.length c 2 d true).length = l.length + 9 := by simp [resBlock]
    have := makes_block (B := B) (x := l.length + 9) (c := c) (stride := 1) (d := d) (input := input)
      (l := l ++ resBlock x l.length c 2 d true) (by rw [hl]; exact h₂)
    rwa [hl] at this
  obtain ⟨e', h1, h2⟩ := this e hre h
  refine ⟨e', ?_, h2⟩
  rw [← h1]
  unfold makeStage
  rw [M.bind_apply, M.get_apply]
  simp only
  rw [M.bind_apply, hsh, M.lift_apply]
  simp only [List.map_cons, List.map_nil, hr]
  rw [M.bind_apply, M.lift_apply]
  have : (do Out.idx (← Out.idx [batchOf B (c₀ :: r)] 0) 1 : Out Int) = .ok c₀ := rfl
  rw [this]
  simp

theorem makes_step_cast {α : Type} (s : Step) {f : Nat → M Expr α} {l₁ l₂ : List Step} {a : α} {n : Nat} (hs : canUse input l s = true)
    (hl : l ++ [s] = l₁) (hn : l.length + 1 = n) (hf : Makes B input (f n) l₁ l₂ a) : Makes B input (use s.op s.name s.args >>= f) l l₂ a := by
  subst hl hn
  exact makes_step s hs hf

theorem buildResnet_net (B : Nat) : ∃ e, buildResnet B {} = (.ok (0, 52), e) ∧ Reachable e ∧ IsNet e B [3, 32, 32] resnet := by
  refine makes_start (input := [3, 32, 32]) ?_
  refine makes_step ⟨conv3 16 1, "", [0], [16, 32, 32]⟩ (by decide +kernel) ?_
  refine makes_step ⟨norm2D, "", [1], [16, 32, 32]⟩ (by decide +kernel) ?_
  refine makes_step_cast ⟨.relu, "", [2], [16, 32, 32]⟩ (l₁ := resnet.take 3) (n := 3) (by decide +kernel) (by decide +kernel) rfl ?_
  refine makes_bind (makes_cast (makes_stage (x := 3) (c := 16) (d := 32) (r := [32, 32]) (by decide +kernel) (by decide +kernel)
    (by decide +kernel) (by decide +kernel)) (l₂ := resnet.take 17) (b := 17) (by decide +kernel) (by decide +kernel)) ?_
  refine makes_bind (makes_cast (makes_stage_down (x := 17) (c := 32) (d := 16) (c₀ := 16) (r := [32, 32]) (by decide +kernel)
    (by decide +kernel) (by decide +kernel) (by decide +kernel)) (l₂ := resnet.take 33) (b := 33) (by decide +kernel) (by decide +kernel)) ?_
  refine makes_bind (makes_cast (makes_stage_down (x := 33) (c := 64) (d := 8) (c₀ := 32) (r := [16, 16]) (by decide +kernel)
    (by decide +kernel) (by decide +kernel) (by decide +kernel)) (l₂ := resnet.take 49) (b := 49) (by decide +kernel) (by decide +kernel)) ?_
  refine makes_step_cast ⟨.globalAvgPooling, "", [49], [64, 1, 1]⟩ (l₁ := resnet.take 50) (n := 50) (by decide +kernel) (by decide +kernel)
    (by decide +kernel) ?_
  refine makes_step_cast ⟨.linear 100, "", [50], [100]⟩ (l₁ := resnet.take 51) (n := 51) (by decide +kernel) (by decide +kernel)
    (by decide +kernel) ?_
  exact makes_step_cast ⟨.softmax, "", [51], [100]⟩ (l₁ := resnet) (n := 52) (by decide +kernel) (by decide +kernel)
    (by decide +kernel) (makes_pure _)

end DW.SampleL
