import Verif.Spec.Samples
import Verif.Lemmas.Image
import Mathlib.Data.List.TakeWhile
/-! # Lemmas about the datasets of the samples -/

set_option autoImplicit false

namespace DW.SamplesL

open DW DW.Spec DW.Samples DW.Tensor DW.Image DW.ImageL

variable {α : Type}

/-! ## Lines -/

theorem findComma_none {pre f : List Char} (hf : ',' ∉ f) : findComma (pre ++ f) pre.length = none := by
  simp only [findComma, List.drop_left, Option.map_eq_none_iff, List.findIdx?_eq_none_iff]
  intro c hc
  simp only [beq_eq_false_iff_ne]
  rintro rfl
  exact hf hc

theorem findComma_at {pre f rest : List Char} (hf : ',' ∉ f) :
    findComma (pre ++ (f ++ ',' :: rest)) pre.length = some (pre.length + f.length) := by
  have : (f ++ ',' :: rest).findIdx? (· == ',') = some f.length := by
    rw [List.findIdx?_append, List.findIdx?_eq_none_iff.2 fun c hc => by
      simp only [beq_eq_false_iff_ne]
      rintro rfl
      exact hf hc]
    simp [List.findIdx?_cons]
  simp [findComma, this]

theorem splitFrom_row : ∀ (fs : List (List Char)) (f pre : List Char), (∀ g ∈ f :: fs, ',' ∉ g) →
    splitFrom (pre ++ csvLine (f :: fs)) pre.length = f :: fs
  | [], f, pre, h => by
    rw [splitFrom]
    have e : pre ++ csvLine [f] = pre ++ f := by simp [csvLine]
    rw [e]
    split
    · rename_i k hk
      rw [findComma_none (h f (by simp))] at hk
      cases hk
    · simp
  | g :: fs, f, pre, h => by
    have e : csvLine (f :: g :: fs) = f ++ ',' :: csvLine (g :: fs) := by simp [csvLine, List.intercalate]
    rw [splitFrom]
    split
    · rename_i k hk
      rw [e, findComma_at (h f (by simp))] at hk
      cases hk
      have e2 : pre ++ csvLine (f :: g :: fs) = (pre ++ f ++ [',']) ++ csvLine (g :: fs) := by rw [e]; simp
      have e3 : pre.length + f.length + 1 = (pre ++ f ++ [',']).length := by simp; omega
      rw [show splitFrom (pre ++ csvLine (f :: g :: fs)) (pre.length + f.length + 1) = g :: fs by
        rw [e2, e3]; exact splitFrom_row fs g _ fun x hx => h x (by simp at hx ⊢; tauto)]
      rw [e]
      simp
    · rename_i hk
      rw [e, findComma_at (h f (by simp))] at hk
      cases hk

theorem split_row {row : List (List Char)} (hne : row ≠ []) (h : ∀ g ∈ row, ',' ∉ g) : splitLineByComma (csvLine row) = row := by
  obtain ⟨f, fs, rfl⟩ := List.exists_cons_of_ne_nil hne
  exact splitFrom_row fs f [] h

theorem getline_lf {l rest : List Char} (h : '\n' ∉ l) : getline (l ++ '\n' :: rest) = some (l, rest) := by
  have ht : (l ++ '\n' :: rest).takeWhile (· != '\n') = l := by
    rw [List.takeWhile_append_of_pos fun c hc => by simp only [bne_iff_ne]; rintro rfl; exact h hc]
    simp
  have hd : (l ++ '\n' :: rest).dropWhile (· != '\n') = '\n' :: rest := by
    rw [List.dropWhile_append_of_pos fun c hc => by simp only [bne_iff_ne]; rintro rfl; exact h hc]
    simp
  rw [getline, if_neg (by simp), ht, hd]
  rfl

theorem getline_last {l : List Char} (hne : l ≠ []) (h : '\n' ∉ l) : getline l = some (l, []) := by
  have ht : l.takeWhile (· != '\n') = l := List.takeWhile_eq_self_iff.2 fun c hc => by simp only [bne_iff_ne]; rintro rfl; exact h hc
  have hd : l.dropWhile (· != '\n') = [] := List.dropWhile_eq_nil_iff.2 fun c hc => by simp only [bne_iff_ne]; rintro rfl; exact h hc
  rw [getline, if_neg hne, ht, hd]
  rfl

/-- The reading loop on a list of lines. -/
def rowsProg (atof : List Char → α) : List (List Char) → M Labels (List (IrisInfo α))
  | [] => pure []
  | l :: ls => do
    let r ← irisRow atof l
    let more ← rowsProg atof ls
    pure (r :: more)

theorem irisRows_nil (atof : List Char → α) : irisRows atof [] = pure [] := by
  rw [irisRows]
  split
  · rfl
  · rename_i h
    cases h

theorem irisRows_cons {atof : List Char → α} {cs line rest : List Char} (h : getline cs = some (line, rest)) :
    irisRows atof cs = (do
      let r ← irisRow atof line
      let more ← irisRows atof rest
      pure (r :: more)) := by
  rw [irisRows]
  split
  · rename_i h'
    rw [h] at h'
    cases h'
  · rename_i h'
    rw [h] at h'
    cases h'
    rfl

theorem irisRows_lines (atof : List Char → α) : ∀ (ls : List (List Char)), (∀ l ∈ ls, '\n' ∉ l) →
    irisRows atof (ls.flatMap fun l => l ++ ['\n']) = rowsProg atof ls
  | [], _ => irisRows_nil atof
  | l :: ls, h => by
    have : getline ((l :: ls).flatMap fun l => l ++ ['\n']) = some (l, ls.flatMap fun l => l ++ ['\n']) := by
      rw [List.flatMap_cons, List.append_assoc]
      exact getline_lf (h l (by simp))
    rw [irisRows_cons this, irisRows_lines atof ls fun x hx => h x (by simp [hx])]
    rfl

theorem irisRows_lines_open (atof : List Char → α) : ∀ (ls : List (List Char)) (text : List Char), (∀ l ∈ ls, '\n' ∉ l) →
    text ++ ['\n'] = ls.flatMap (fun l => l ++ ['\n']) → (∀ l ∈ ls.getLast?, l ≠ []) → irisRows atof text = rowsProg atof ls
  | [], text, _, h, _ => by simp at h
  | [l], text, h, ht, hl => by
    have : text = l := by simpa using ht
    subst this
    rw [irisRows_cons (getline_last (l := text) (hl _ rfl) (h _ (by simp))), irisRows_nil]
    rfl
  | l :: l' :: ls, text, h, ht, hl => by
    obtain ⟨t', rfl⟩ : ∃ t', text = l ++ '\n' :: t' := by
      have hpre : (l ++ ['\n']) <+: text ++ ['\n'] := by rw [ht, List.flatMap_cons]; exact List.prefix_append _ _
      have hlen : (l ++ ['\n']).length ≤ text.length := by
        have := congrArg List.length ht
        simp only [List.flatMap_cons, List.length_append, List.length_cons, List.length_nil] at this ⊢
        omega
      obtain ⟨t', rfl⟩ := (List.prefix_append_right_inj []).1 (List.prefix_of_prefix_length_le hpre (List.prefix_append _ _) hlen)
      exact ⟨t', by simp⟩
    have ht' : t' ++ ['\n'] = (l' :: ls).flatMap fun l => l ++ ['\n'] := by
      rw [List.flatMap_cons, List.append_assoc, List.append_assoc] at ht
      simpa using ht
    rw [irisRows_cons (getline_lf (h l (by simp))),
      irisRows_lines_open atof (l' :: ls) t' (fun x hx => h x (by simp at hx ⊢; tauto)) ht' (fun x hx => hl x (by simpa using hx))]
    rfl

theorem csvLine_ne {r : List (List Char)} (hne : r ≠ []) (h : r ≠ [[]]) : csvLine r ≠ [] := by
  match r with
  | [] => exact absurd rfl hne
  | [f] =>
    intro e
    exact h (by simpa [csvLine] using e)
  | f :: g :: fs => simp [csvLine, List.intercalate]

theorem csvLine_lf {r : List (List Char)} (h : ∀ f ∈ r, '\n' ∉ f) : '\n' ∉ csvLine r := by
  match r with
  | [] => simp [csvLine]
  | [f] => simpa [csvLine] using h f (by simp)
  | f :: g :: fs =>
    have := csvLine_lf (r := g :: fs) fun x hx => h x (by simp at hx ⊢; tauto)
    have e : csvLine (f :: g :: fs) = f ++ ',' :: csvLine (g :: fs) := by simp [csvLine, List.intercalate]
    rw [e]
    simp only [List.mem_append, List.mem_cons, not_or]
    exact ⟨h f (by simp), by decide, this⟩

theorem irisDataset_some {atof : List Char → α} {text line rest : List Char} (h : getline text = some (line, rest)) :
    irisDataset atof (some text) = irisRows atof rest := by
  unfold irisDataset
  simp only [Option.getD_some, h]

/-- The constructor reads the rows of a table. -/
theorem irisDataset_table (atof : List Char → α) {text header : List Char} {rows : List (List (List Char))} (h : IsTable text header rows) :
    irisDataset atof (some text) = rowsProg atof (rows.map csvLine) := by
  obtain ⟨h1, h2, h3⟩ := h
  have hlf : ∀ l ∈ rows.map csvLine, '\n' ∉ l := fun l hl => by
    obtain ⟨r, hr, rfl⟩ := List.mem_map.1 hl
    exact csvLine_lf fun f hf => ((h2 r hr).2 f hf).2
  have hmap : rows.flatMap (fun r => csvLine r ++ ['\n']) = (rows.map csvLine).flatMap fun l => l ++ ['\n'] := by
    rw [List.flatMap_map]
  rcases h3 with rfl | ⟨h3, h4⟩
  · rw [csvText, irisDataset_some (getline_lf h1), hmap]
    exact irisRows_lines atof _ hlf
  · rw [csvText, hmap] at h3
    rcases List.eq_nil_or_concat (rows.map csvLine) with hn | ⟨L, b, hn⟩
    · rw [hn] at h3 ⊢
      have : text = header := by simpa using h3
      subst this
      by_cases he : text = []
      · rw [he]
        exact irisRows_nil atof
      · rw [irisDataset_some (getline_last he h1)]
        exact irisRows_nil atof
    · have hne : rows ≠ [] := by rintro rfl; simp at hn
      obtain ⟨t', rfl⟩ : ∃ t', text = header ++ '\n' :: t' := by
        have hpre : (header ++ ['\n']) <+: text ++ ['\n'] := by rw [h3]; exact ⟨_, by rw [List.append_assoc]; rfl⟩
        have hlen : (header ++ ['\n']).length ≤ text.length := by
          have := congrArg List.length h3
          rw [hn] at this
          simp only [List.concat_eq_append, List.flatMap_append, List.flatMap_cons, List.flatMap_nil, List.length_append, List.length_cons,
            List.length_nil] at this ⊢
          omega
        obtain ⟨t', rfl⟩ := List.prefix_of_prefix_length_le hpre (List.prefix_append _ _) hlen
        exact ⟨t', by simp⟩
      rw [irisDataset_some (getline_lf h1)]
      refine irisRows_lines_open atof _ _ hlf (by simpa using h3) fun l hl => ?_
      rw [List.getLast?_map] at hl
      obtain ⟨r, hr, rfl⟩ := Option.map_eq_some_iff.1 hl
      exact csvLine_ne (h2 r (List.mem_of_getLast? hr)).1 (h4 r hr)

/-! ## Labels -/

/-- The map gives known names their numbers and other names 0. -/
def Numbers (known : List Char → Option Int) (m : Labels) : Prop := ∀ s, (m.lookup s).getD 0 = (known s).getD 0

theorem mapAt_spec {known : List Char → Option Int} {m : Labels} (h : Numbers known m) (key : List Char) :
    ∃ m', mapAt key m = (.ok ((known key).getD 0), m') ∧ Numbers known m' ∧ ((m.lookup key).isSome → m' = m) := by
  unfold mapAt
  have hk := h key
  cases hl : m.lookup key with
  | some v =>
    rw [hl] at hk
    exact ⟨m, by rw [← hk]; rfl, h, fun _ => rfl⟩
  | none =>
    rw [hl] at hk
    refine ⟨m ++ [(key, 0)], by rw [← hk]; rfl, fun s => ?_, fun h => by cases h⟩
    rw [← h s, List.lookup_append]
    cases m.lookup s with
    | some v => rfl
    | none =>
      simp only [Option.none_or, List.lookup_cons, List.lookup_nil]
      split <;> rfl

theorem iris_numbers : Numbers species iris2label := fun s => by
  simp only [iris2label, List.lookup_cons, List.lookup_nil, species]
  split
  · rename_i h; rw [if_pos (by simpa using h)]
  · rename_i h
    rw [if_neg (by simpa using h)]
    split
    · rename_i h; rw [if_pos (by simpa using h)]
    · rename_i h
      rw [if_neg (by simpa using h)]
      split
      · rename_i h; rw [if_pos (by simpa using h)]
      · rename_i h; rw [if_neg (by simpa using h)]

/-- What a row with five fields stands for. -/
def infoOfRow (atof : List Char → α) (r : List (List Char)) : IrisInfo α :=
  ⟨atof (cstr (r.getD 0 [])), atof (cstr (r.getD 1 [])), atof (cstr (r.getD 2 [])), atof (cstr (r.getD 3 [])), (species (r.getD 4 [])).getD 0⟩

theorem irisRow_ok (atof : List Char → α) {r : List (List Char)} (h5 : 5 ≤ r.length) (hc : ∀ f ∈ r, ',' ∉ f) {m : Labels}
    (hm : Numbers species m) : ∃ m', irisRow atof (csvLine r) m = (.ok (infoOfRow atof r), m') ∧ Numbers species m' := by
  match r, h5 with
  | a :: b :: c :: d :: s :: rest, _ =>
    obtain ⟨m', h1, h2, -⟩ := mapAt_spec hm s
    refine ⟨m', ?_, h2⟩
    unfold irisRow
    rw [split_row (by simp) hc]
    show (mapAt s >>= _) m = _
    rw [M.bind_ok h1]
    rfl

theorem irisRow_short (atof : List Char → α) {r : List (List Char)} (hne : r ≠ []) (h5 : r.length < 5) (hc : ∀ f ∈ r, ',' ∉ f) (m : Labels) :
    irisRow atof (csvLine r) m = (.ub .oob, m) := by
  unfold irisRow
  rw [split_row hne hc]
  match r, h5 with
  | [], _ => exact absurd rfl hne
  | [a], _ => rfl
  | [a, b], _ => rfl
  | [a, b, c], _ => rfl
  | [a, b, c, d], _ => rfl

theorem rowsProg_ok (atof : List Char → α) : ∀ (rows : List (List (List Char))) (m : Labels),
    (∀ r ∈ rows, 5 ≤ r.length ∧ ∀ f ∈ r, ',' ∉ f) → Numbers species m →
    ∃ m', rowsProg atof (rows.map csvLine) m = (.ok (rows.map (infoOfRow atof)), m') ∧ Numbers species m'
  | [], m, _, hm => ⟨m, rfl, hm⟩
  | r :: rows, m, h, hm => by
    obtain ⟨m1, h1, hm1⟩ := irisRow_ok atof (h r (by simp)).1 (h r (by simp)).2 hm
    obtain ⟨m2, h2, hm2⟩ := rowsProg_ok atof rows m1 (fun x hx => h x (by simp [hx])) hm1
    refine ⟨m2, ?_, hm2⟩
    rw [List.map_cons, rowsProg, M.bind_ok h1, M.bind_ok h2]
    rfl

theorem rowsProg_short (atof : List Char → α) : ∀ (rows : List (List (List Char))) (m : Labels),
    (∀ r ∈ rows, r ≠ [] ∧ ∀ f ∈ r, ',' ∉ f) → (∃ r ∈ rows, r.length < 5) → Numbers species m →
    ∃ m', rowsProg atof (rows.map csvLine) m = (.ub .oob, m')
  | [], m, _, h, _ => by simp at h
  | r :: rows, m, h, hs, hm => by
    rw [List.map_cons, rowsProg]
    by_cases h5 : r.length < 5
    · exact ⟨m, M.bind_ub (irisRow_short atof (h r (by simp)).1 h5 (h r (by simp)).2 m)⟩
    · obtain ⟨m1, h1, hm1⟩ := irisRow_ok atof (by omega) (h r (by simp)).2 hm
      obtain ⟨m2, h2⟩ := rowsProg_short atof rows m1 (fun x hx => h x (by simp [hx])) (by
        obtain ⟨x, hx, h'⟩ := hs
        rcases List.mem_cons.1 hx with rfl | hx
        · exact absurd h' h5
        · exact ⟨x, hx, h'⟩) hm1
      exact ⟨m2, by rw [M.bind_ok h1, M.bind_ub h2]⟩

end DW.SamplesL
