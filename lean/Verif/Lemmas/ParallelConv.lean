import Verif.Lemmas.Parallel
/-! # The bodies of the parallel loops -/

set_option autoImplicit false

namespace DW.ParL

open DW.Spec DW.MatL DW.FlatL DW.EigL DW.NormL DW.LayoutL DW.Im2colL DW.ConvL DW.Par

noncomputable section

variable {A : Type} [DecidableEq A]

theorem within_sumProd {V : Type} [Add V] [Mul V] {R W : Set A} {l : List (A × A)} {s : V} {k : V → Prog A V} (hl : ∀ x ∈ l, x.1 ∈ R ∧ x.2 ∈ R)
    (hk : ∀ s, Within R W (k s)) : Within R W (sumProd l s k) := by
  induction l generalizing s with
  | nil => exact hk s
  | cons x l ih =>
    obtain ⟨x, y⟩ := x
    have := hl (x, y) (by simp)
    exact ⟨this.1, fun _ => ⟨this.2, fun _ => ih fun z hz => hl z (by simp [hz])⟩⟩

theorem run_sumProd (l : List (A × A)) (s : ℝ) (k : ℝ → Prog A) (m : A → ℝ) :
    run (sumProd l s k) m = run (k (s + (l.map fun x => m x.1 * m x.2).sum)) m := by
  induction l generalizing s with
  | nil => simp [sumProd]
  | cons x l ih =>
    obtain ⟨x, y⟩ := x
    rw [sumProd, run, run, ih, List.map_cons, List.sum_cons, add_assoc]

/-- A loop whose iterations write one element each, which no other iteration uses. -/
theorem phase {n : Nat} {p : Nat → Prog A} {w : Nat → A} {Rd : Nat → Set A} (hw : ∀ e < n, Within (Rd e) {w e} (p e))
    (hinj : ∀ e < n, ∀ e' < n, w e = w e' → e = e') (hR : ∀ e < n, ∀ e' < n, e ≠ e' → w e ∉ Rd e') (m : A → ℝ) :
    (∀ e < n, run (seq ((List.range n).map p)) m (w e) = run (p e) m (w e)) ∧
      ∀ a, (∀ e < n, a ≠ w e) → run (seq ((List.range n).map p)) m a = m a := by
  have h := seq_merged (p := p) (R := Rd) (W := fun e => {w e}) (List.nodup_range (n := n))
    (fun e he => hw e (List.mem_range.mp he))
    (fun e he e' he' hne a ha => by
      rw [List.mem_range] at he he'
      rw [Set.mem_singleton_iff] at ha
      subst ha
      exact ⟨hR e he e' he' hne, fun h => hne (hinj e he e' he' h)⟩) m
  exact ⟨fun e he => h.own e (List.mem_range.mpr he) _ rfl, fun a ha => h.rest a fun e he h' => ha e (List.mem_range.mp he) h'⟩

theorem block_unique {s x b b' : Nat} (h1 : b * s ≤ x) (h2 : x < (b + 1) * s) (h3 : b' * s ≤ x) (h4 : x < (b' + 1) * s) :
    b = b' := by
  rcases Nat.lt_trichotomy b b' with h | h | h
  · have := Nat.mul_le_mul_right s (Nat.succ_le_of_lt h)
    simp only [Nat.succ_eq_add_one] at this
    omega
  · exact h
  · have := Nat.mul_le_mul_right s (Nat.succ_le_of_lt h)
    simp only [Nat.succ_eq_add_one] at this
    omega

theorem block_end {s b N : Nat} (h : b < N) : (b + 1) * s ≤ N * s := Nat.mul_le_mul_right s h

/-- The contents of a tensor. -/
def tensor (m : Nat × Nat → ℝ) (t n : Nat) : List ℝ := (List.range n).map fun i => m (t, i)

theorem tensor_length (m : Nat × Nat → ℝ) (t n : Nat) : (tensor m t n).length = n := by simp [tensor]

theorem tensor_getElem? (m : Nat × Nat → ℝ) (t n i : Nat) (h : i < n) : (tensor m t n)[i]? = some (m (t, i)) := by
  simp [tensor, h]

theorem index_div {q : Nat} (o : Nat) (p : Fin q) : (o * q + p.val) / q = o := by
  have := p.is_lt
  rw [Nat.add_comm, Nat.add_mul_div_right _ _ (by omega), Nat.div_eq_of_lt p.is_lt, Nat.zero_add]

theorem index_mod {q : Nat} (o : Nat) (p : Fin q) : (o * q + p.val) % q = p.val := by
  rw [Nat.add_comm, Nat.add_mul_mod_self_right, Nat.mod_eq_of_lt p.is_lt]

/-! ### Convolution -/

/-- What iteration `b` of the convolution writes: its block of the column buffer and of the output. -/
def convWrites (rows cols cOut b : Nat) : Set (Nat × Nat) :=
  {a | (a.1 = 4 ∧ b * (rows * cols) ≤ a.2 ∧ a.2 < (b + 1) * (rows * cols)) ∨
    (a.1 = 3 ∧ b * (cOut * cols) ≤ a.2 ∧ a.2 < (b + 1) * (cOut * cols))}

/-- What iteration `b` of the convolution reads: its image, the weights, the bias, and its blocks. -/
def convReads (image rows cols cOut b : Nat) : Set (Nat × Nat) :=
  {a | (a.1 = 0 ∧ b * image ≤ a.2 ∧ a.2 < (b + 1) * image) ∨ (a.1 = 1 ∧ a.2 < cOut * rows) ∨ (a.1 = 2 ∧ a.2 < cOut) ∨
    a ∈ convWrites rows cols cOut b}

variable {reads : List (Option Nat)} {image rows cols cOut : Nat}

theorem im2colStep_within {V : Type} [Zero V] (ioff off k : Nat) (o : Option Nat) {R W : Set (Nat × Nat)} (hr : ∀ i, o = some i → (0, ioff + i) ∈ R)
    (hw : (4, off + k) ∈ W) : Within R W (im2colStep (V := V) ioff off k o) := by
  cases o with
  | none => exact ⟨hw, trivial⟩
  | some i => exact ⟨hr i rfl, fun _ => ⟨hw, trivial⟩⟩

theorem mulStep_within {V : Type} [Zero V] [Add V] [Mul V] {off ooff e : Nat} {R W : Set (Nat × Nat)} (he : e < cOut * cols)
    (h1 : ∀ i < cOut * rows, ((1, i) : Nat × Nat) ∈ R) (h4 : ∀ i < rows * cols, (4, off + i) ∈ R) (hw : (3, ooff + e) ∈ W) :
    Within R W (mulStep (V := V) rows cols off ooff e) := by
  have hc : 0 < cols := Nat.pos_of_mul_pos_left (Nat.lt_of_le_of_lt (Nat.zero_le _) he)
  refine within_sumProd (fun x hx => ?_) fun s => ⟨hw, trivial⟩
  obtain ⟨r, hr, rfl⟩ := List.mem_map.mp hx
  rw [List.mem_range] at hr
  have hd : e / cols < cOut := (Nat.div_lt_iff_lt_mul hc).mpr he
  exact ⟨h1 _ (index_lt (⟨e / cols, hd⟩ : Fin cOut) (⟨r, hr⟩ : Fin rows)),
    h4 _ (index_lt (⟨r, hr⟩ : Fin rows) (⟨e % cols, Nat.mod_lt _ hc⟩ : Fin cols))⟩

theorem biasStep_within {V : Type} [Add V] {ooff e : Nat} {R W : Set (Nat × Nat)} (he : e < cOut * cols)
    (h2 : ∀ i < cOut, ((2, i) : Nat × Nat) ∈ R) (h3 : (3, ooff + e) ∈ R) (hw : (3, ooff + e) ∈ W) :
    Within R W (biasStep (V := V) cols ooff e) := by
  have hc : 0 < cols := Nat.pos_of_mul_pos_left (Nat.lt_of_le_of_lt (Nat.zero_le _) he)
  exact ⟨h3, fun _ => ⟨h2 _ ((Nat.div_lt_iff_lt_mul hc).mpr he), fun _ => ⟨hw, trivial⟩⟩⟩

theorem getD_mem {k i : Nat} (hk : k < reads.length) (h : reads.getD k none = some i) : some i ∈ reads := by
  rw [List.getD_eq_getElem?_getD, List.getElem?_eq_getElem hk] at h
  exact h ▸ List.getElem_mem hk

theorem convBody_within {V : Type} [Zero V] [Add V] [Mul V] (hl : reads.length = rows * cols) (hr : ∀ i, some i ∈ reads → i < image) (b : Nat) :
    Within (convReads image rows cols cOut b) (convWrites rows cols cOut b) (convBody (V := V) reads image rows cols cOut b) := by
  have e1 : (b + 1) * (rows * cols) = b * (rows * cols) + rows * cols := by ring
  have e2 : (b + 1) * (cOut * cols) = b * (cOut * cols) + cOut * cols := by ring
  have e3 : (b + 1) * image = b * image + image := by ring
  have hw4 : ∀ k < rows * cols, ((4, b * (rows * cols) + k) : Nat × Nat) ∈ convWrites rows cols cOut b := fun k hk =>
    .inl ⟨rfl, by simp only; omega, by simp only; omega⟩
  have hw3 : ∀ e < cOut * cols, ((3, b * (cOut * cols) + e) : Nat × Nat) ∈ convWrites rows cols cOut b := fun e he =>
    .inr ⟨rfl, by simp only; omega, by simp only; omega⟩
  unfold convBody
  refine Within.andThen (Within.seq fun p hp => ?_) (Within.andThen (Within.seq fun p hp => ?_) (Within.seq fun p hp => ?_))
  · obtain ⟨k, hk, rfl⟩ := List.mem_map.mp hp
    rw [List.mem_range] at hk
    refine im2colStep_within _ _ _ _ (fun i hi => .inl ?_) (hw4 k (by omega))
    have := hr i (getD_mem hk hi)
    exact ⟨rfl, by simp only; omega, by simp only; omega⟩
  · obtain ⟨e, he, rfl⟩ := List.mem_map.mp hp
    rw [List.mem_range] at he
    exact mulStep_within he (fun i hi => .inr (.inl ⟨rfl, hi⟩)) (fun i hi => .inr (.inr (.inr (hw4 i hi)))) (hw3 e he)
  · obtain ⟨e, he, rfl⟩ := List.mem_map.mp hp
    rw [List.mem_range] at he
    exact biasStep_within he (fun i hi => .inr (.inr (.inl ⟨rfl, hi⟩))) (.inr (.inr (.inr (hw3 e he)))) (hw3 e he)

theorem conv_apart (image rows cols cOut : Nat) (l : List Nat) :
    Apart (convReads image rows cols cOut) (convWrites rows cols cOut) l := by
  intro i _ j _ hij a ha
  have hW : a ∉ convWrites rows cols cOut j := by
    rintro (⟨h1, h2, h3⟩ | ⟨h1, h2, h3⟩) <;> rcases ha with ⟨g1, g2, g3⟩ | ⟨g1, g2, g3⟩
    · exact hij (block_unique g2 g3 h2 h3)
    · omega
    · omega
    · exact hij (block_unique g2 g3 h2 h3)
  refine ⟨?_, hW⟩
  rintro (⟨h1, _⟩ | ⟨h1, _⟩ | ⟨h1, _⟩ | h)
  · rcases ha with ⟨g1, _⟩ | ⟨g1, _⟩ <;> omega
  · rcases ha with ⟨g1, _⟩ | ⟨g1, _⟩ <;> omega
  · rcases ha with ⟨g1, _⟩ | ⟨g1, _⟩ <;> omega
  · exact hW h

/-- What `im2col` stores for one address. -/
def fetched (m : Nat × Nat → ℝ) (ioff : Nat) : Option Nat → ℝ
  | none => 0
  | some i => m (0, ioff + i)

theorem convBody_run (hl : reads.length = rows * cols) (b : Nat) (m : Nat × Nat → ℝ) :
    (∀ k < rows * cols, run (convBody reads image rows cols cOut b) m (4, b * (rows * cols) + k) =
      fetched m (b * image) (reads.getD k none)) ∧
    ∀ e < cOut * cols, run (convBody reads image rows cols cOut b) m (3, b * (cOut * cols) + e) =
      (∑ r : Fin rows, m (1, e / cols * rows + r.val) * fetched m (b * image) (reads.getD (r.val * cols + e % cols) none)) +
        m (2, e / cols) := by
  unfold convBody
  rw [run_andThen, run_andThen]
  -- im2col
  obtain ⟨p1, p1'⟩ := phase (n := reads.length)
    (p := fun k => im2colStep (b * image) (b * (rows * cols)) k (reads.getD k none))
    (w := fun k => (4, b * (rows * cols) + k)) (Rd := fun _ => {a | a.1 = 0})
    (fun k _ => im2colStep_within _ _ _ _ (fun i _ => rfl) rfl)
    (fun e _ e' _ h => by simpa using h) (fun e _ e' _ _ h => by simp at h) m
  generalize run (seq ((List.range reads.length).map fun k =>
    im2colStep (b * image) (b * (rows * cols)) k (reads.getD k none))) m = m1 at *
  have q1 : ∀ k < rows * cols, m1 (4, b * (rows * cols) + k) = fetched m (b * image) (reads.getD k none) := fun k hk => by
    rw [p1 k (by omega)]
    cases reads.getD k none <;> simp [im2colStep, run, fetched]
  have q1' : ∀ t i, t ≠ 4 → m1 (t, i) = m (t, i) := fun t i ht => p1' _ fun e _ h => ht (by simpa using congrArg Prod.fst h)
  -- product
  obtain ⟨p2, p2'⟩ := phase (n := cOut * cols) (p := mulStep rows cols (b * (rows * cols)) (b * (cOut * cols)))
    (w := fun e => (3, b * (cOut * cols) + e)) (Rd := fun _ => {a | a.1 = 1 ∨ a.1 = 4})
    (fun e he => mulStep_within he (fun i _ => .inl rfl) (fun i _ => .inr rfl) rfl)
    (fun e _ e' _ h => by simpa using h) (fun e _ e' _ _ h => by simp at h) m1
  generalize run (seq ((List.range (cOut * cols)).map (mulStep rows cols (b * (rows * cols)) (b * (cOut * cols))))) m1 = m2 at *
  have q2 : ∀ e < cOut * cols, m2 (3, b * (cOut * cols) + e) = ∑ r : Fin rows, m (1, e / cols * rows + r.val) *
      fetched m (b * image) (reads.getD (r.val * cols + e % cols) none) := fun e he => by
    have hc : 0 < cols := Nat.pos_of_mul_pos_left (Nat.lt_of_le_of_lt (Nat.zero_le _) he)
    rw [p2 e he, mulStep, run_sumProd, run, run, Function.update_self, zero_add, List.map_map, range_map, List.sum_ofFn]
    refine Finset.sum_congr rfl fun r _ => ?_
    simp only [Function.comp]
    rw [q1' 1 _ (by decide), q1 _ (index_lt r (⟨e % cols, Nat.mod_lt _ hc⟩ : Fin cols))]
  have q2' : ∀ t i, t ≠ 3 → m2 (t, i) = m1 (t, i) := fun t i ht => p2' _ fun e _ h => ht (by simpa using congrArg Prod.fst h)
  -- bias
  obtain ⟨p3, p3'⟩ := phase (n := cOut * cols) (p := biasStep cols (b * (cOut * cols)))
    (w := fun e => (3, b * (cOut * cols) + e)) (Rd := fun e => {a | a.1 = 2 ∨ a = (3, b * (cOut * cols) + e)})
    (fun e he => biasStep_within he (fun i _ => .inl rfl) (.inr rfl) rfl)
    (fun e _ e' _ h => by simpa using h) (fun e _ e' _ hne h => by simp at h; exact hne h) m2
  refine ⟨fun k hk => ?_, fun e he => ?_⟩
  · rw [p3' _ fun e _ h => absurd (congrArg Prod.fst h) (by simp), q2' 4 _ (by decide), q1 k hk]
  · rw [p3 e he, biasStep, run, run, run, run, Function.update_self, q2 e he, q2' 2 _ (by decide), q1' 2 _ (by decide)]

section conv

variable {N C O : Nat} {a b : Axis}

theorem fetched_addr (X : Fin N → Fin C → Fin a.size → Fin b.size → ℝ) (m : Nat × Nat → ℝ)
    (hm : tensor m 0 (N * (C * (a.size * b.size))) = flat4 X) (n : Fin N) (c : Fin C) (y x : Int) :
    fetched m (n.val * (C * (a.size * b.size))) (addr a.size b.size c y x) = pixel (X n c) 0 y x := by
  have h := read_eq (X n) [] 0 c y x
  rcases ha : addr a.size b.size c y x with _ | i
  · rw [ha] at h
    simpa [readOrFill, fetched] using h
  · rw [ha] at h
    have hi := addr_lt ha
    rw [List.append_nil] at h
    have h1 : (flat3 (X n))[i]? = some (pixel (X n c) 0 y x) := by
      have h' : Out.idx (flat3 (X n)) i = .ok (pixel (X n c) 0 y x) := h
      unfold Out.idx at h'
      cases hh : (flat3 (X n))[i]? with
      | none => rw [hh] at h'; simp at h'
      | some v => rw [hh] at h'; simpa using h'
    have hlt : n.val * (C * (a.size * b.size)) + i < N * (C * (a.size * b.size)) := index_lt n (⟨i, hi⟩ : Fin (C * (a.size * b.size)))
    have h2 := tensor_getElem? m 0 _ _ hlt
    rw [hm] at h2
    have h3 : (flat4 X)[n.val * (C * (a.size * b.size)) + i]? = (flat3 (X n))[i]? := by
      have e1 := rowMajor_getElem? (fun n (q : Fin (C * (a.size * b.size))) => X n q.divNat q.modNat.divNat q.modNat.modNat) n ⟨i, hi⟩
      rw [show flat4 X = rowMajor _ from rfl, e1]
      obtain ⟨c', q, hcq⟩ := exists_pair (⟨i, hi⟩ : Fin (C * (a.size * b.size)))
      obtain ⟨y', x', rfl⟩ := exists_pair q
      have hiv : i = (pair c' (pair y' x')).val := congrArg Fin.val hcq
      rw [hcq, hiv, flat3_getElem?]
      simp
    rw [h3, h1] at h2
    exact (Option.some.inj h2).symm

/-- The addresses read by `im2col` in an iteration of the convolution. -/
def convAddrs (C : Nat) (a b : Axis) : List (Option Nat) := im2colReads C a.size b.size (geo a b) 1 1 a.out b.out

theorem convAddrs_eq (da : a.dil = 1) (db : b.dil = 1) :
    convAddrs C a b = rowMajor fun (p : Fin (C * a.kernel * b.kernel)) (o : Fin (a.out * b.out)) =>
      addr a.size b.size p.divNat.divNat (a.pos o.divNat p.divNat.modNat) (b.pos o.modNat p.modNat) := by
  have h := reads_eq C a b
  rw [da, db, flat4_rows] at h
  exact h

theorem convAddrs_lt (da : a.dil = 1) (db : b.dil = 1) (i : Nat) (h : some i ∈ convAddrs C a b) : i < C * (a.size * b.size) := by
  rw [convAddrs_eq da db, rowMajor_eq_ofFn, List.mem_ofFn] at h
  obtain ⟨q, hq⟩ := h
  exact addr_lt hq

theorem fetched_col (da : a.dil = 1) (db : b.dil = 1) (X : Fin N → Fin C → Fin a.size → Fin b.size → ℝ) (m : Nat × Nat → ℝ)
    (hm : tensor m 0 (N * (C * (a.size * b.size))) = flat4 X) (n : Fin N) (p : Fin (C * a.kernel * b.kernel))
    (o : Fin (a.out * b.out)) :
    fetched m (n.val * (C * (a.size * b.size))) ((convAddrs C a b).getD (p.val * (a.out * b.out) + o.val) none) =
      colMat a b (X n) 0 p o := by
  rw [List.getD_eq_getElem?_getD, convAddrs_eq da db, rowMajor_getElem?, Option.getD_some, fetched_addr X m hm]
  rfl

end conv

/-! ### The gradient with respect to the input -/

/-- What iteration `b` of the input gradient writes: its local buffer and its image. -/
def gradWrites (image rows cols b : Nat) : Set (Nat × Nat) :=
  {a | (a.1 = 3 + b ∧ a.2 < rows * cols) ∨ (a.1 = 2 ∧ b * image ≤ a.2 ∧ a.2 < (b + 1) * image)}

/-- What it reads: its block of the output gradient, the weights, and what it writes. -/
def gradReads (image rows cols cOut b : Nat) : Set (Nat × Nat) :=
  {a | (a.1 = 0 ∧ b * (cOut * cols) ≤ a.2 ∧ a.2 < (b + 1) * (cOut * cols)) ∨ (a.1 = 1 ∧ a.2 < cOut * rows) ∨
    a ∈ gradWrites image rows cols b}

theorem gradMulStep_within {V : Type} [Zero V] [Add V] [Mul V] {loc goff e : Nat} {R W : Set (Nat × Nat)} (he : e < rows * cols)
    (h1 : ∀ i < cOut * rows, ((1, i) : Nat × Nat) ∈ R) (h0 : ∀ i < cOut * cols, (0, goff + i) ∈ R) (hw : (loc, e) ∈ W) :
    Within R W (gradMulStep (V := V) rows cols cOut loc goff e) := by
  have hc : 0 < cols := Nat.pos_of_mul_pos_left (Nat.lt_of_le_of_lt (Nat.zero_le _) he)
  refine within_sumProd (fun x hx => ?_) fun s => ⟨hw, trivial⟩
  obtain ⟨o, ho, rfl⟩ := List.mem_map.mp hx
  rw [List.mem_range] at ho
  have hd : e / cols < rows := (Nat.div_lt_iff_lt_mul hc).mpr he
  exact ⟨h1 _ (index_lt (⟨o, ho⟩ : Fin cOut) (⟨e / cols, hd⟩ : Fin rows)),
    h0 _ (index_lt (⟨o, ho⟩ : Fin cOut) (⟨e % cols, Nat.mod_lt _ hc⟩ : Fin cols))⟩

theorem col2imStep_within {V : Type} [Add V] (loc ioff k : Nat) (o : Option Nat) {R W : Set (Nat × Nat)}
    (hr : ∀ i, o = some i → (2, ioff + i) ∈ R ∧ (2, ioff + i) ∈ W) (hl : (loc, k) ∈ R) : Within R W (col2imStep (V := V) loc ioff k o) := by
  cases o with
  | none => trivial
  | some i => exact ⟨(hr i rfl).1, fun _ => ⟨hl, fun _ => ⟨(hr i rfl).2, trivial⟩⟩⟩

theorem gradBody_within {V : Type} [Zero V] [Add V] [Mul V] (hl : reads.length = rows * cols) (hr : ∀ i, some i ∈ reads → i < image) (b : Nat) :
    Within (gradReads image rows cols cOut b) (gradWrites image rows cols b) (convGradBody (V := V) reads image rows cols cOut b) := by
  have e2 : (b + 1) * (cOut * cols) = b * (cOut * cols) + cOut * cols := by ring
  have e3 : (b + 1) * image = b * image + image := by ring
  have hloc : ∀ k < rows * cols, ((3 + b, k) : Nat × Nat) ∈ gradWrites image rows cols b := fun k hk => .inl ⟨rfl, hk⟩
  unfold convGradBody
  refine Within.andThen (Within.seq fun p hp => ?_) (Within.seq fun p hp => ?_)
  · obtain ⟨e, he, rfl⟩ := List.mem_map.mp hp
    rw [List.mem_range] at he
    exact gradMulStep_within he (fun i hi => .inr (.inl ⟨rfl, hi⟩))
      (fun i hi => .inl ⟨rfl, by simp only; omega, by simp only; omega⟩) (hloc e he)
  · obtain ⟨k, hk, rfl⟩ := List.mem_map.mp hp
    rw [List.mem_range] at hk
    refine col2imStep_within _ _ _ _ (fun i hi => ?_) (.inr (.inr (hloc k (by omega))))
    have := hr i (getD_mem hk hi)
    have hmem : ((2, b * image + i) : Nat × Nat) ∈ gradWrites image rows cols b :=
      .inr ⟨rfl, by simp only; omega, by simp only; omega⟩
    exact ⟨.inr (.inr hmem), hmem⟩

theorem grad_apart (image rows cols cOut : Nat) (l : List Nat) :
    Apart (gradReads image rows cols cOut) (gradWrites image rows cols) l := by
  intro i _ j _ hij a ha
  have hW : a ∉ gradWrites image rows cols j := by
    rintro (⟨h1, h2⟩ | ⟨h1, h2, h3⟩) <;> rcases ha with ⟨g1, g2⟩ | ⟨g1, g2, g3⟩
    · omega
    · omega
    · omega
    · exact hij (block_unique g2 g3 h2 h3)
  refine ⟨?_, hW⟩
  rintro (⟨h1, _⟩ | ⟨h1, _⟩ | h)
  · rcases ha with ⟨g1, _⟩ | ⟨g1, _⟩ <;> omega
  · rcases ha with ⟨g1, _⟩ | ⟨g1, _⟩ <;> omega
  · exact hW h

theorem col2im_run (loc ioff : Nat) (hloc : loc ≠ 2) (ad : Nat → Option Nat) (l : List Nat) (m : Nat × Nat → ℝ) :
    (∀ i, run (seq (l.map fun k => col2imStep loc ioff k (ad k))) m (2, ioff + i) =
      m (2, ioff + i) + (l.map fun k => if ad k = some i then m (loc, k) else 0).sum) ∧
    ∀ t i, t ≠ 2 → run (seq (l.map fun k => col2imStep loc ioff k (ad k))) m (t, i) = m (t, i) := by
  induction l generalizing m with
  | nil => exact ⟨fun i => by simp [seq, run], fun t i _ => by simp [seq, run]⟩
  | cons k l ih =>
    simp only [List.map_cons, seq, run_andThen, List.sum_cons]
    obtain ⟨h1, h2⟩ := ih (run (col2imStep loc ioff k (ad k)) m)
    have hloc' : ∀ j, run (col2imStep loc ioff k (ad k)) m (loc, j) = m (loc, j) := fun j => by
      cases ad k with
      | none => rfl
      | some i0 =>
        simp only [col2imStep, run]
        rw [Function.update_of_ne]
        exact fun h => hloc (congrArg Prod.fst h)
    constructor
    · intro i
      rw [h1 i]
      simp only [hloc']
      rw [← add_assoc]
      congr 1
      cases ad k with
      | none => simp [col2imStep, run]
      | some i0 =>
        simp only [col2imStep, run, Option.some.injEq]
        by_cases h : i0 = i
        · subst h; simp
        · rw [if_neg h, add_zero, Function.update_of_ne]
          exact fun h' => h (by simpa using h'.symm)
    · intro t i ht
      rw [h2 t i ht]
      cases ad k with
      | none => rfl
      | some i0 =>
        simp only [col2imStep, run]
        rw [Function.update_of_ne]
        exact fun h => ht (congrArg Prod.fst h)

theorem gradBody_run (hl : reads.length = rows * cols) (b : Nat) (m : Nat × Nat → ℝ) (i : Nat) :
    run (convGradBody reads image rows cols cOut b) m (2, b * image + i) = m (2, b * image + i) +
      ∑ k : Fin (rows * cols), if reads.getD k.val none = some i then
        ∑ o : Fin cOut, m (1, o.val * rows + k.val / cols) * m (0, b * (cOut * cols) + (o.val * cols + k.val % cols)) else 0 := by
  unfold convGradBody
  rw [run_andThen]
  obtain ⟨p1, p1'⟩ := phase (n := rows * cols) (p := gradMulStep rows cols cOut (3 + b) (b * (cOut * cols)))
    (w := fun e => (3 + b, e)) (Rd := fun _ => {a | a.1 = 0 ∨ a.1 = 1})
    (fun e he => gradMulStep_within he (fun i _ => .inr rfl) (fun i _ => .inl rfl) rfl)
    (fun e _ e' _ h => by simpa using h) (fun e _ e' _ _ h => by simp at h; omega) m
  generalize run (seq ((List.range (rows * cols)).map (gradMulStep rows cols cOut (3 + b) (b * (cOut * cols))))) m = m1 at *
  rw [(col2im_run (3 + b) (b * image) (by omega) (fun k => reads.getD k none) _ m1).1 i,
    p1' _ fun e _ h => absurd (congrArg Prod.fst h) (by simp only; omega), hl, range_map, List.sum_ofFn]
  congr 1
  refine Finset.sum_congr rfl fun k _ => ?_
  by_cases h : reads.getD k.val none = some i
  · rw [if_pos h, if_pos h, p1 k.val k.is_lt, gradMulStep, run_sumProd, run, run, Function.update_self, zero_add, List.map_map,
      range_map, List.sum_ofFn]
    rfl
  · rw [if_neg h, if_neg h]

/-! ### Add -/

def addWrites (gi0 gi1 i : Nat) : Set (Nat × Nat) := {a | (a.1 = gi0 ∨ a.1 = gi1) ∧ a.2 = i}

def addReads (go gi0 gi1 i : Nat) : Set (Nat × Nat) := {a | (a.1 = go ∨ a.1 = gi0 ∨ a.1 = gi1) ∧ a.2 = i}

theorem addBody_within {V : Type} [Add V] (go gi0 gi1 i : Nat) : Within (addReads go gi0 gi1 i) (addWrites gi0 gi1 i) (addBody (V := V) go gi0 gi1 i) := by
  refine ⟨⟨.inr (.inl rfl), rfl⟩, fun _ => ⟨⟨.inl rfl, rfl⟩, fun _ => ⟨⟨.inl rfl, rfl⟩, ⟨.inr (.inr rfl), rfl⟩, fun _ =>
    ⟨⟨.inl rfl, rfl⟩, fun _ => ⟨⟨.inr rfl, rfl⟩, trivial⟩⟩⟩⟩⟩

theorem add_apart (go gi0 gi1 : Nat) (l : List Nat) : Apart (addReads go gi0 gi1) (addWrites gi0 gi1) l := by
  rintro i _ j _ hij a ⟨_, h⟩
  exact ⟨fun h' => hij (h.symm.trans h'.2), fun h' => hij (h.symm.trans h'.2)⟩

theorem addBody_run {go gi0 gi1 : Nat} (h0 : go ≠ gi0) (i : Nat) (m : Nat × Nat → ℝ) (t : Nat) :
    run (addBody go gi0 gi1 i) m (t, i) =
      m (t, i) + ((if t = gi0 then 1 else 0) + (if t = gi1 then 1 else 0)) * m (go, i) := by
  have hgo : Function.update m (gi0, i) (m (gi0, i) + m (go, i)) (go, i) = m (go, i) :=
    Function.update_of_ne (fun h => h0 (congrArg Prod.fst h)) _ _
  simp only [addBody, run, hgo]
  by_cases h1 : t = gi1
  · subst h1
    rw [Function.update_self, if_pos rfl]
    by_cases h2 : t = gi0
    · subst h2
      rw [Function.update_self, if_pos rfl]; ring
    · rw [Function.update_of_ne (fun h => h2 (congrArg Prod.fst h)), if_neg h2]; ring
  · rw [Function.update_of_ne (fun h => h1 (congrArg Prod.fst h)), if_neg h1]
    by_cases h2 : t = gi0
    · subst h2
      rw [Function.update_self, if_pos rfl]; ring
    · rw [Function.update_of_ne (fun h => h2 (congrArg Prod.fst h)), if_neg h2]; ring

end

end DW.ParL
