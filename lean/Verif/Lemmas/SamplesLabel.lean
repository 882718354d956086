import Verif.Lemmas.SamplesImage
/-! # Lemmas about the labels of directories -/

set_option autoImplicit false

namespace DW.SamplesL

open DW DW.Spec DW.Samples DW.Tensor

/-- The loop when the label of a name does not depend on what was seen before. -/
theorem folder_ok {σ : Type} {labelOf : List Char → M σ Int} {I : σ → Prop} {number : List Char → Int} :
    ∀ (dirs : List (List Char × List (List Char))) (s : σ),
      (∀ d ∈ dirs, ∀ s, I s → ∃ s', labelOf d.1 s = (.ok (number d.1), s') ∧ I s') → I s →
      ∃ s', folder labelOf (listing dirs) s = (.ok (labelled number dirs), s') ∧ I s'
  | [], s, _, hs => ⟨s, rfl, hs⟩
  | d :: dirs, s, h, hs => by
    obtain ⟨s1, e1, h1⟩ := h d (by simp) s hs
    obtain ⟨s2, e2, h2⟩ := folder_ok dirs s1 (fun x hx => h x (by simp [hx])) h1
    refine ⟨s2, ?_, h2⟩
    show folder labelOf ((d.1, some d.2) :: listing dirs) s = _
    rw [folder, M.bind_ok e1]
    show (folder labelOf (listing dirs) >>= _) s1 = _
    rw [M.bind_ok e2]
    rfl

/-- An invariant of one label is one of the loop, however it ends. -/
theorem folder_inv {σ : Type} {labelOf : List Char → M σ Int} {I : σ → Prop}
    (h : ∀ name s, I s → (∀ u, (labelOf name s).1 ≠ .ub u) → I (labelOf name s).2) : ∀ (l : Listing) (s : σ), I s →
      (∀ u, (folder labelOf l s).1 ≠ .ub u) → I (folder labelOf l s).2
  | [], s, hs, _ => hs
  | (name, files) :: rest, s, hs, hu => by
    have hn := h name s hs
    rw [folder] at hu ⊢
    cases he : labelOf name s with
    | mk o s1 =>
      rw [he] at hn
      cases o with
      | ub u =>
        rw [M.bind_ub he] at hu
        exact absurd rfl (hu u)
      | throw e =>
        rw [M.bind_throw he]
        exact hn fun u => by simp
      | ok label =>
        have h1 : I s1 := hn fun u => by simp
        rw [M.bind_ok he] at hu ⊢
        cases files with
        | none => exact h1
        | some files =>
          have ih := folder_inv h rest s1 h1
          revert hu
          show (∀ u, ((folder labelOf rest >>= fun more => pure (files.map (⟨·, label⟩) ++ more)) s1).1 ≠ .ub u) →
            I ((folder labelOf rest >>= fun more => pure (files.map (⟨·, label⟩) ++ more)) s1).2
          intro hu
          cases hr : folder labelOf rest s1 with
          | mk o s2 =>
            rw [hr] at ih
            cases o with
            | ub u =>
              rw [M.bind_ub hr] at hu
              exact absurd rfl (hu u)
            | throw e =>
              rw [M.bind_throw hr]
              exact ih fun u => by simp
            | ok more =>
              rw [M.bind_ok hr]
              exact ih fun u => by simp

theorem reaches_inv {σ : Type} {labelOf : List Char → M σ Int} {I : σ → Prop}
    (h : ∀ name s, I s → (∀ u, (labelOf name s).1 ≠ .ub u) → I (labelOf name s).2) {s s' : σ} (hr : Reaches labelOf s s') (hs : I s) : I s' := by
  induction hr with
  | refl => exact hs
  | step root _ hu ih =>
    cases root with
    | none => exact ih
    | some l => exact folder_inv h l _ ih hu

/-! ## MNIST -/

theorem isSpace_digit {c : Char} (h : c.isDigit) : isSpace c = false := by
  unfold Char.isDigit at h
  unfold isSpace
  simp only [ge_iff_le, Bool.and_eq_true, decide_eq_true_eq, UInt32.le_iff_toNat_le] at h
  have h1 : 48 ≤ c.toNat := h.1
  have h2 : c ≠ ' ' := by
    rintro rfl
    exact absurd h1 (by decide)
  simp only [Bool.or_eq_false_iff, beq_eq_false_iff_ne, ne_eq, Bool.and_eq_false_iff, decide_eq_false_iff_not]
  exact ⟨h2, .inr (by omega)⟩

theorem digits_toDigits (k : Nat) : digits (Nat.toDigits 10 k) = k := by
  have := Nat.ofDigitChars_ten_toDigits (n := k)
  unfold Nat.ofDigitChars at this
  exact this

theorem stoi_decimal {k : Nat} (hk : k ≤ 2147483647) : stoi (Nat.toDigits 10 k) = .ok k := by
  have hd : ∀ c ∈ Nat.toDigits 10 k, c.isDigit := fun c hc => Nat.isDigit_of_mem_toDigits (by decide) (by decide) hc
  have hne : Nat.toDigits 10 k ≠ [] := Nat.toDigits_ne_nil
  have hdig := digits_toDigits k
  generalize Nat.toDigits 10 k = l at *
  obtain ⟨c, cs, rfl⟩ := List.exists_cons_of_ne_nil hne
  have hc := hd c (by simp)
  have h1 : (c :: cs).dropWhile isSpace = c :: cs := by rw [List.dropWhile_cons_of_neg]; simp [isSpace_digit hc]
  have h2 : c ≠ '-' := by rintro rfl; exact absurd hc (by decide)
  have h3 : c ≠ '+' := by rintro rfl; exact absurd hc (by decide)
  have h4 : (c :: cs).takeWhile Char.isDigit = c :: cs := List.takeWhile_eq_self_iff.2 fun x hx => hd x hx
  unfold stoi
  simp only [h1, List.head?_cons, Option.some.injEq, beq_iff_eq, h2, h3, Bool.or_eq_true, or_self, if_false, h4, reduceCtorEq, if_false, hdig]
  have : Tensor.fitsInt (k : Int) := by simp only [fitsInt, decide_eq_true_eq, Bool.and_eq_true]; omega
  simp [h2, this]

theorem takeWhile_stop {ds rest : List Char} (hd : ∀ c ∈ ds, c.isDigit) (hr : ∀ c, rest.head? = some c → c.isDigit = false) :
    (ds ++ rest).takeWhile Char.isDigit = ds := by
  rw [List.takeWhile_append_of_pos hd]
  cases rest with
  | nil => simp
  | cons c cs => simp [List.takeWhile_cons_of_neg, hr c rfl]

/-- `stoi` in general: spaces, a sign and digits are read, the rest is ignored. -/
theorem stoi_prefix {ws rest : List Char} (hw : ∀ c ∈ ws, isSpace c) (hr : ∀ c, rest.head? = some c → c.isDigit = false) (k : Nat) :
    (k ≤ 2147483647 → stoi (ws ++ (Nat.toDigits 10 k ++ rest)) = .ok k) ∧
    (k ≤ 2147483647 → stoi (ws ++ ('+' :: (Nat.toDigits 10 k ++ rest))) = .ok k) ∧
    (k ≤ 2147483648 → stoi (ws ++ ('-' :: (Nat.toDigits 10 k ++ rest))) = .ok (-(k : Int))) := by
  have hd : ∀ c ∈ Nat.toDigits 10 k, c.isDigit := fun c hc => Nat.isDigit_of_mem_toDigits (by decide) (by decide) hc
  have hne : Nat.toDigits 10 k ≠ [] := Nat.toDigits_ne_nil
  have hdig := digits_toDigits k
  generalize Nat.toDigits 10 k = l at *
  have ht := takeWhile_stop hd hr
  obtain ⟨c, cs, rfl⟩ := List.exists_cons_of_ne_nil hne
  have hc := hd c (by simp)
  have h2 : c ≠ '-' := by rintro rfl; exact absurd hc (by decide)
  have h3 : c ≠ '+' := by rintro rfl; exact absurd hc (by decide)
  have drop : ∀ {x : Char} {xs : List Char}, isSpace x = false → (ws ++ x :: xs).dropWhile isSpace = x :: xs := fun {x xs} hx => by
    rw [List.dropWhile_append_of_pos hw, List.dropWhile_cons_of_neg]
    simp [hx]
  refine ⟨fun hk => ?_, fun hk => ?_, fun hk => ?_⟩
  · have hf : Tensor.fitsInt (k : Int) := by simp only [fitsInt, decide_eq_true_eq, Bool.and_eq_true]; omega
    unfold stoi
    rw [List.cons_append, drop (isSpace_digit hc)]
    rw [List.cons_append] at ht
    simp [h2, h3, ht, hdig, hf]
  · have hf : Tensor.fitsInt (k : Int) := by simp only [fitsInt, decide_eq_true_eq, Bool.and_eq_true]; omega
    unfold stoi
    rw [drop (by decide)]
    simp only [List.head?_cons, List.drop_one, List.tail_cons, beq_self_eq_true, Bool.or_true, if_true, ht, hdig]
    simp [hf]
  · have hf : Tensor.fitsInt (-(k : Int)) := by simp only [fitsInt, decide_eq_true_eq, Bool.and_eq_true]; omega
    unfold stoi
    rw [drop (by decide)]
    simp only [List.head?_cons, List.drop_one, List.tail_cons, beq_self_eq_true, Bool.true_or, if_true, ht, hdig]
    simp [hf]

theorem stoi_letter {c : Char} {cs : List Char} (h : c.isDigit = false ∧ isSpace c = false ∧ c ≠ '-' ∧ c ≠ '+') : stoi (c :: cs) = .throw .std := by
  obtain ⟨h1, h2, h3, h4⟩ := h
  have h1' : (c :: cs).dropWhile isSpace = c :: cs := by rw [List.dropWhile_cons_of_neg]; simp [h2]
  unfold stoi
  simp [h1', h3, h4, h1]

/-- A name that is no number, or a file where a directory should be, makes the constructor throw. -/
theorem mnist_throws : ∀ (l : Listing) (_ : ∃ x ∈ l, (∃ e, stoi x.1 = .throw e) ∨ x.2 = none), ∃ e, folder mnistLabel l () = (.throw e, ())
  | [], h => by simp at h
  | (name, files) :: rest, h => by
    rw [folder]
    have hno : ∀ u, stoi name ≠ .ub u := fun u => by
      unfold stoi
      simp only
      repeat' split
      all_goals exact fun h => by cases h
    cases hs : stoi name with
    | ub u => exact absurd hs (hno u)
    | throw e =>
      have : mnistLabel name () = (.throw e, ()) := by rw [mnistLabel, hs]; rfl
      exact ⟨e, M.bind_throw this⟩
    | ok v =>
      have hv : mnistLabel name () = (.ok v, ()) := by rw [mnistLabel, hs]; rfl
      rw [M.bind_ok hv]
      cases files with
      | none => exact ⟨_, rfl⟩
      | some files =>
        obtain ⟨x, hx, hh⟩ := h
        rcases List.mem_cons.1 hx with rfl | hx
        · rcases hh with ⟨e, he⟩ | hh
          · rw [hs] at he; cases he
          · cases hh
        · obtain ⟨e, he⟩ := mnist_throws rest ⟨x, hx, hh⟩
          exact ⟨e, M.bind_throw he⟩

/-! ## CIFAR-100 -/

/-- The names have the numbers 0, 1, … in the order in which they were seen. -/
structure DirsOk (d : Dirs) : Prop where
  counter : d.counter = d.map.length
  nodup : (d.map.map Prod.fst).Nodup
  nums : d.map.map Prod.snd = (List.range d.map.length).map Int.ofNat

def number (d : Dirs) (name : List Char) : Int := (d.map.lookup name).getD 0

theorem initial_ok : DirsOk Dirs.initial := ⟨rfl, by simp [Dirs.initial], rfl⟩

theorem lookup_mem {m : Labels} {name : List Char} {v : Int} (h : m.lookup name = some v) : (name, v) ∈ m := by
  induction m with
  | nil => cases h
  | cons x m ih =>
    rw [List.lookup_cons] at h
    split at h
    · rename_i he
      simp only [beq_iff_eq] at he
      cases h
      rw [he]; simp
    · exact List.mem_cons_of_mem _ (ih h)

theorem lookup_none {m : Labels} {name : List Char} (h : m.lookup name = none) : name ∉ m.map Prod.fst := by
  induction m with
  | nil => simp
  | cons x m ih =>
    rw [List.lookup_cons] at h
    split at h
    · cases h
    · rename_i he
      simp only [beq_eq_false_iff_ne] at he
      simp only [List.map_cons, List.mem_cons, not_or]
      exact ⟨he, ih h⟩

theorem DirsOk.index {d : Dirs} (h : DirsOk d) {i : Nat} {x : List Char × Int} (hx : d.map[i]? = some x) : x.2 = i := by
  have h1 : (d.map.map Prod.snd)[i]? = some x.2 := by rw [List.getElem?_map, hx]; rfl
  rw [h.nums, List.getElem?_map, List.getElem?_range (lt_of_getElem? hx)] at h1
  exact (Option.some.inj h1).symm

theorem DirsOk.range {d : Dirs} (h : DirsOk d) {name : List Char} {v : Int} (hv : d.map.lookup name = some v) : 0 ≤ v ∧ v < d.map.length := by
  obtain ⟨i, hi⟩ := List.mem_iff_getElem?.1 (lookup_mem hv)
  have := h.index hi
  have := lt_of_getElem? hi
  simp only at *
  omega

theorem DirsOk.inj {d : Dirs} (h : DirsOk d) {a b : List Char} {v : Int} (ha : d.map.lookup a = some v) (hb : d.map.lookup b = some v) : a = b := by
  obtain ⟨i, hi⟩ := List.mem_iff_getElem?.1 (lookup_mem ha)
  obtain ⟨j, hj⟩ := List.mem_iff_getElem?.1 (lookup_mem hb)
  have h1 := h.index hi
  have h2 := h.index hj
  simp only at h1 h2
  obtain rfl : i = j := by omega
  rw [hi] at hj
  cases hj
  rfl

/-- No number is forgotten or changed. -/
def Ext (d d' : Dirs) : Prop := ∀ name v, d.map.lookup name = some v → d'.map.lookup name = some v

theorem label_new {d : Dirs} {name : List Char} (hl : d.map.lookup name = none) (h : DirsOk d) :
    DirsOk ⟨d.counter + 1, d.map ++ [(name, d.counter)]⟩ ∧ Ext d ⟨d.counter + 1, d.map ++ [(name, d.counter)]⟩ := by
  refine ⟨⟨?_, ?_, ?_⟩, ?_⟩
  · simp [h.counter]
  · simp only [List.map_append, List.map_cons, List.map_nil]
    exact List.nodup_append'.2 ⟨h.nodup, by simp, by simpa using lookup_none hl⟩
  · simp only [List.map_append, h.nums, List.length_append, List.length_cons, List.length_nil, List.range_succ, List.map_cons, List.map_nil, h.counter]
    rfl
  · intro n v hv
    simp only [List.lookup_append, hv, Option.some_or]

theorem label_ok {d : Dirs} (h : DirsOk d) (name : List Char) (hf : d.counter + 1 ≤ 2147483647) :
    ∃ d' v, cifar100Label name d = (.ok v, d') ∧ DirsOk d' ∧ Ext d d' ∧ d'.map.lookup name = some v ∧ d'.map.length ≤ d.map.length + 1 := by
  unfold cifar100Label
  cases hl : d.map.lookup name with
  | some v =>
    have := h.range hl
    refine ⟨d, v, by simp only; rw [if_neg (by omega)], h, fun _ _ hh => hh, hl, by omega⟩
  | none =>
    obtain ⟨h1, h2⟩ := label_new hl h
    have hc := h.counter
    refine ⟨_, d.counter, ?_, h1, h2, ?_, by simp⟩
    · simp only
      rw [if_pos (by simp only [fitsInt, decide_eq_true_eq, Bool.and_eq_true]; omega), if_neg (by omega)]
    · simp [List.lookup_append, hl]

theorem label_inv (name : List Char) (d : Dirs) (h : DirsOk d) (hu : ∀ u, (cifar100Label name d).1 ≠ .ub u) :
    DirsOk (cifar100Label name d).2 ∧ Ext d (cifar100Label name d).2 := by
  unfold cifar100Label at hu ⊢
  cases hl : d.map.lookup name with
  | some v =>
    simp only
    split <;> exact ⟨h, fun _ _ hh => hh⟩
  | none =>
    rw [hl] at hu
    simp only at hu ⊢
    split
    · split <;> exact label_new hl h
    · rename_i hf
      rw [if_neg hf] at hu
      exact absurd rfl (hu _)

theorem dirs_reaches {d d' : Dirs} (h : Reaches cifar100Label d d') (hd : DirsOk d) : DirsOk d' ∧ Ext d d' := by
  refine reaches_inv (I := fun x => DirsOk x ∧ Ext d x) (fun name s hs hu => ?_) h ⟨hd, fun _ _ hh => hh⟩
  obtain ⟨h1, h2⟩ := label_inv name s hs.1 hu
  exact ⟨h1, fun n v hv => h2 n v (hs.2 n v hv)⟩

theorem labelled_congr {f g : List Char → Int} {dirs : List (List Char × List (List Char))} (h : ∀ d ∈ dirs, f d.1 = g d.1) :
    labelled f dirs = labelled g dirs := by
  unfold labelled
  induction dirs with
  | nil => rfl
  | cons d dirs ih =>
    rw [List.flatMap_cons, List.flatMap_cons, h d (by simp), ih fun x hx => h x (by simp [hx])]

theorem number_ext {d d' : Dirs} (h : Ext d d') {name : List Char} (hs : (d.map.lookup name).isSome) : number d' name = number d name := by
  obtain ⟨v, hv⟩ := Option.isSome_iff_exists.1 hs
  rw [number, number, hv, h _ _ hv]

theorem dirs_folder : ∀ (dirs : List (List Char × List (List Char))) (d : Dirs), DirsOk d → d.counter + dirs.length ≤ 2147483647 →
    ∃ d', folder cifar100Label (listing dirs) d = (.ok (labelled (number d') dirs), d') ∧ DirsOk d' ∧ Ext d d' ∧
      (∀ x ∈ dirs, (d'.map.lookup x.1).isSome) ∧ d'.map.length ≤ d.map.length + dirs.length
  | [], d, h, _ => ⟨d, rfl, h, fun _ _ hh => hh, by simp, by simp⟩
  | x :: dirs, d, h, hf => by
    rw [List.length_cons] at hf
    obtain ⟨d1, v, e1, h1, x1, l1, n1⟩ := label_ok h x.1 (by omega)
    have c0 := h.counter
    have c1 := h1.counter
    obtain ⟨d2, e2, h2, x2, l2, n2⟩ := dirs_folder dirs d1 h1 (by omega)
    refine ⟨d2, ?_, h2, fun n v hv => x2 n v (x1 n v hv), ?_, by rw [List.length_cons]; omega⟩
    · show folder cifar100Label ((x.1, some x.2) :: listing dirs) d = _
      rw [folder, M.bind_ok e1]
      show (folder cifar100Label (listing dirs) >>= _) d1 = _
      rw [M.bind_ok e2]
      have : number d2 x.1 = v := by rw [number, x2 _ _ l1]; rfl
      show (Out.ok (x.2.map (⟨·, v⟩) ++ labelled (number d2) dirs), d2) = _
      rw [← this]
      rfl
    · intro y hy
      rcases List.mem_cons.1 hy with rfl | hy
      · rw [x2 _ _ l1]; rfl
      · exact l2 y hy

end DW.SamplesL
