import Verif.Model.Exception
/-!
# The text of exceptions (C132)
-/

set_option autoImplicit false

namespace DW.Props.ExceptionP

open DW.Exc
open DW.Bench (Text decInt)

noncomputable section

/-- What is true after any history. -/
structure Sound (s : State) : Prop where
  obj : ∀ o i, s.objs o = some i → o < s.nextObj ∧ i < s.nextImpl
  fresh : ∀ i, s.nextImpl ≤ i → (s.impls i).buffer = none
  buf : ∀ i b, (s.impls i).buffer = some b → b < s.nextBuf
  own : ∀ i j b, (s.impls i).buffer = some b → (s.impls j).buffer = some b → i = j

theorem sound_empty : Sound empty := ⟨by simp [empty], by simp [empty], by simp [empty], by simp [empty]⟩

theorem sound_step {s s' : State} {op : Op} (h : Sound s) (hs : step s op = some s') : Sound s' := by
  cases op with
  | create line file func =>
    obtain rfl := Option.some.inj hs
    refine ⟨fun o i ho => ?_, fun i hi => ?_, fun i b hb => ?_, fun i j b hi hj => ?_⟩ <;> simp only [create, Function.update_apply] at *
    · split_ifs at ho with e
      · obtain rfl := Option.some.inj ho
        omega
      · have := h.obj o i ho
        omega
    · rw [if_neg (by omega)]
      exact h.fresh i (by omega)
    · split_ifs at hb with e
      exact h.buf i b hb
    · split_ifs at hi hj
      exact h.own i j b hi hj
  | copy o =>
    simp only [step, copy, Option.map_map, Option.map_eq_some_iff] at hs
    obtain ⟨i, hi, rfl⟩ := hs
    refine ⟨fun o' i' ho => ?_, h.fresh, h.buf, h.own⟩
    simp only [Function.comp, Function.update_apply] at *
    have := h.obj o i hi
    split_ifs at ho with e
    · obtain rfl := Option.some.inj ho
      omega
    · have := h.obj o' i' ho
      omega
  | append o t =>
    simp only [step, append, Option.map_eq_some_iff] at hs
    obtain ⟨i, hi, rfl⟩ := hs
    have e : ∀ j, (Function.update s.impls i { s.impls i with stream := (s.impls i).stream ++ t } j).buffer = (s.impls j).buffer := fun j => by
      rw [Function.update_apply]
      split_ifs with c
      · rw [c]
      · rfl
    refine ⟨h.obj, fun j hj => ?_, fun j b hb => ?_, fun j k b hj hk => ?_⟩ <;> simp only [e] at *
    · exact h.fresh j hj
    · exact h.buf j b hb
    · exact h.own j k b hj hk
  | what o =>
    simp only [step, what, Option.map_map, Option.map_eq_some_iff] at hs
    obtain ⟨i, hi, rfl⟩ := hs
    have hn := (h.obj o i hi).2
    refine ⟨h.obj, fun j hj => ?_, fun j b hb => ?_, fun j k b hj hk => ?_⟩ <;> simp only [Function.comp, Function.update_apply] at *
    · rw [if_neg (by omega)]
      exact h.fresh j hj
    · split_ifs at hb with c
      · have := Option.some.inj hb
        omega
      · have := h.buf j b hb
        omega
    · split_ifs at hj hk with c d d
      · rw [c, d]
      · have := h.buf k b hk
        have := Option.some.inj hj
        omega
      · have := h.buf j b hj
        have := Option.some.inj hk
        omega
      · exact h.own j k b hj hk
  | destroy o =>
    simp only [step, destroy, Option.map_eq_some_iff] at hs
    obtain ⟨i, hi, rfl⟩ := hs
    have ho : ∀ o' i', Function.update s.objs o none o' = some i' → o' < s.nextObj ∧ i' < s.nextImpl := fun o' i' e => by
      rw [Function.update_apply] at e
      split_ifs at e
      exact h.obj o' i' e
    split_ifs with c
    · exact ⟨ho, h.fresh, h.buf, h.own⟩
    · refine ⟨ho, fun j hj => ?_, fun j b hb => ?_, fun j k b hj hk => ?_⟩ <;> simp only [Function.update_apply] at *
      · split_ifs
        · rfl
        · exact h.fresh j hj
      · split_ifs at hb
        exact h.buf j b hb
      · split_ifs at hj hk
        exact h.own j k b hj hk

/-- Histories: each operation is defined. -/
inductive History : State → List Op → State → Prop
  | none (s : State) : History s [] s
  | step {s s' s'' : State} {op : Op} {l : List Op} : step s op = some s' → History s' l s'' → History s (op :: l) s''

theorem History.sound {s s' : State} {l : List Op} (h : History s l s') (hs : Sound s) : Sound s' := by
  induction h with
  | none => exact hs
  | step h _ ih => exact ih (sound_step hs h)

/-- The text of an exception that exists. -/
def text (s : State) (o : ℕ) : Option Text := (s.objs o).map fun i => (s.impls i).stream

/-- What an operation adds to the text of the exceptions with block `i`. -/
def added (s : State) (i : ℕ) : Op → Text
  | .append o t => if s.objs o = some i then t else []
  | _ => []

/-- An operation that leaves the exception `o` alive keeps its block and adds to its text what is appended to it or one of its copies. -/
theorem step_text {s s' : State} {op : Op} (h : Sound s) (hs : step s op = some s') {o i : ℕ} (ho : s.objs o = some i)
    (halive : op ≠ .destroy o) : s'.objs o = some i ∧ (s'.impls i).stream = (s.impls i).stream ++ added s i op := by
  have hlt := h.obj o i ho
  cases op with
  | create line file func =>
    obtain rfl := Option.some.inj hs
    simp only [create, Function.update_apply, added, List.append_nil]
    rw [if_neg (by omega), if_neg (by omega)]
    exact ⟨ho, rfl⟩
  | copy o' =>
    simp only [step, copy, Option.map_map, Option.map_eq_some_iff] at hs
    obtain ⟨j, hj, rfl⟩ := hs
    simp only [Function.comp, Function.update_apply, added, List.append_nil]
    rw [if_neg (by omega)]
    exact ⟨ho, trivial⟩
  | append o' t =>
    simp only [step, append, Option.map_eq_some_iff] at hs
    obtain ⟨j, hj, rfl⟩ := hs
    refine ⟨ho, ?_⟩
    simp only [Function.update_apply, added, hj]
    by_cases c : i = j
    · subst c
      simp
    · have : j ≠ i := fun e => c e.symm
      simp [c, this]
  | what o' =>
    simp only [step, what, Option.map_map, Option.map_eq_some_iff] at hs
    obtain ⟨j, hj, rfl⟩ := hs
    refine ⟨ho, ?_⟩
    simp only [Function.comp, Function.update_apply, added, List.append_nil]
    split_ifs with c
    · rw [c]
    · rfl
  | destroy o' =>
    simp only [step, destroy, Option.map_eq_some_iff] at hs
    obtain ⟨j, hj, rfl⟩ := hs
    have hne : o ≠ o' := fun e => halive (by rw [e])
    have e : Function.update s.objs o' none o = some i := by rw [Function.update_of_ne hne, ho]
    split_ifs with c
    · exact ⟨e, by simp [added]⟩
    · refine ⟨e, ?_⟩
      simp only [Function.update_apply, added, List.append_nil]
      split_ifs with d
      · rw [d]
      · rfl

/-- All that a history appends to the exceptions with block `i`, in order. -/
def appended (i : ℕ) : State → List Op → Text
  | _, [] => []
  | s, op :: l => added s i op ++ (step s op).elim [] fun s' => appended i s' l

/-- **C132, histories.** As long as an exception exists its text is the one it had, followed by all that was appended to it or its copies. -/
theorem history_text {s s' : State} {l : List Op} (hl : History s l s') (h : Sound s) {o i : ℕ} (ho : s.objs o = some i)
    (halive : Op.destroy o ∉ l) : text s' o = (text s o).map (· ++ appended i s l) := by
  have key : s'.objs o = some i ∧ (s'.impls i).stream = (s.impls i).stream ++ appended i s l := by
    induction hl with
    | none => exact ⟨ho, by simp [appended]⟩
    | step h1 _ ih =>
      simp only [List.mem_cons, not_or] at halive
      obtain ⟨e1, e2⟩ := step_text h h1 ho (Ne.symm halive.1)
      obtain ⟨e3, e4⟩ := ih (sound_step h h1) e1 halive.2
      exact ⟨e3, by rw [e4, e2, appended, h1, Option.elim_some, List.append_assoc]⟩
  simp [text, key.1, key.2, ho]

/-- **C132, new exceptions.** Their text is the place that was given; it was not in use before. -/
theorem create_text (s : State) (line : ℤ) (file func : Text) : text (create line file func s).1 (create line file func s).2 =
    some ("Failed: ".toList ++ file ++ " in function: ".toList ++ func ++ " in line: ".toList ++ decInt line ++ ['\n']) ∧
    (Sound s → s.objs (create line file func s).2 = none) := by
  refine ⟨by simp only [create, text, Function.update_self, Option.map_some]; rfl, fun h => ?_⟩
  by_contra hc
  obtain ⟨i, hi⟩ := Option.ne_none_iff_exists'.1 hc
  exact absurd (h.obj _ i hi).1 (lt_irrefl _)

/-- **C132, what is shown.** `what` gives a text that starts with the one that the exception has, and that is the text that is read. -/
theorem what_text {s s' : State} {o p : ℕ} (hs : what o s = some (s', p)) : text s o = s'.bufs p ∧ s'.bufs p ≠ none ∧ text s' o = text s o := by
  simp only [what, Option.map_eq_some_iff, Prod.mk.injEq] at hs
  obtain ⟨i, hi, rfl, rfl⟩ := hs
  simp [text, hi]

/-- **C132, copies.** A copy has the same text, also after more is appended to one of the two. -/
theorem copy_text {s s' : State} {o e : ℕ} (h : Sound s) (hs : copy o s = some (s', e)) : text s' e = text s o ∧ text s' o = text s o ∧
    ∀ t s'', append e t s' = some s'' ∨ append o t s' = some s'' → text s'' o = (text s o).map (· ++ t) ∧ text s'' e = (text s o).map (· ++ t) := by
  simp only [copy, Option.map_eq_some_iff, Prod.mk.injEq] at hs
  obtain ⟨i, hi, rfl, rfl⟩ := hs
  have hne : o ≠ s.nextObj := (h.obj o i hi).1.ne
  refine ⟨by simp [text, hi], by simp [text, hi, hne], fun t s'' ha => ?_⟩
  rcases ha with ha | ha
  · simp only [append, Function.update_self, Option.map_some, Option.some.injEq] at ha
    subst ha
    simp [text, hi, hne]
  · simp only [append, Function.update_of_ne hne, hi, Option.map_some, Option.some.injEq] at ha
    subst ha
    simp [text, hi, hne]

/-- The end of an exception with a copy leaves the block. -/
theorem destroy_copied {s : State} {o o' i : ℕ} (ho : s.objs o = some i) (ho' : s.objs o' = some i) (hne : o' ≠ o) :
    destroy o s = some { s with objs := Function.update s.objs o none } := by
  simp only [destroy, ho, Option.map_some, Option.some.injEq]
  exact if_pos ⟨o', by rw [Function.update_of_ne hne, ho']⟩

/-- **C132, failed assertions.** The exception that a failed assertion throws exists although the temporary is gone, and its text says where
the assertion is and what it is. -/
theorem failed_text (s : State) (line : ℤ) (file func expr : Text) : ∃ s' e, failed line file func expr s = some (s', e) ∧
    text s' e = some ("Failed: ".toList ++ file ++ " in function: ".toList ++ func ++ " in line: ".toList ++ decInt line ++ ['\n'] ++
      "Assertion failed: ".toList ++ expr) := by
  have ne : s.nextObj ≠ s.nextObj + 1 := by omega
  have ht : "Failed: ".toList ++ file ++ " in function: ".toList ++ func ++ " in line: ".toList ++ decInt line ++ ['\n'] = header line file func := rfl
  rw [ht]
  clear ht
  unfold failed
  generalize "Assertion failed: ".toList = a
  obtain ⟨s1, h1⟩ : ∃ s1, s1 = (create line file func s).1 := ⟨_, rfl⟩
  have o1 : s1.objs s.nextObj = some s.nextImpl := by rw [h1]; simp [create]
  have t1 : (s1.impls s.nextImpl).stream = header line file func := by rw [h1]; simp [create]
  have n1 : s1.nextObj = s.nextObj + 1 := by rw [h1]; rfl
  have e1 : create line file func s = (s1, s.nextObj) := by rw [h1]; rfl
  clear h1
  obtain ⟨i, hi⟩ : ∃ i, i = s.nextImpl := ⟨_, rfl⟩
  rw [← hi] at o1 t1
  simp only [e1, append, o1, copy, n1, Option.map_some, Option.bind_eq_bind, Option.bind_some]
  rw [destroy_copied (i := i) (o' := s.nextObj + 1) (by simp only; rw [Function.update_of_ne ne, o1]) (by simp) ne.symm]
  refine ⟨_, _, rfl, ?_⟩
  simp [text, t1]

/-- An operation after which the result `p` of `what` for an exception with block `i` can still be read: not `what` for the exception or one
of its copies, and not the end of the last of them. -/
def Keeps (s : State) (i : ℕ) : Op → Prop
  | .what o => s.objs o ≠ some i
  | .destroy o => s.objs o = some i → ∃ o', o' ≠ o ∧ s.objs o' = some i
  | _ => True

theorem free_other {bufs : ℕ → Option Text} {b : Option ℕ} {p : ℕ} (h : b ≠ some p) : free bufs b p = bufs p := by
  cases b with
  | none => rfl
  | some b => exact Function.update_of_ne (fun e => h (by rw [e])) _ _

/-- Such an operation keeps the buffer of the message. -/
theorem step_keeps {s s' : State} {op : Op} (h : Sound s) (hs : step s op = some s') {i p : ℕ} (hi : (s.impls i).buffer = some p)
    (hk : Keeps s i op) : (s'.impls i).buffer = some p ∧ s'.bufs p = s.bufs p := by
  have hp := h.buf i p hi
  have hn : i < s.nextImpl := by
    by_contra hc
    rw [h.fresh i (not_lt.1 hc)] at hi
    exact absurd hi (by simp)
  cases op with
  | create line file func =>
    obtain rfl := Option.some.inj hs
    simp only [create, Function.update_apply]
    rw [if_neg (by omega)]
    exact ⟨hi, trivial⟩
  | copy o' =>
    simp only [step, copy, Option.map_map, Option.map_eq_some_iff] at hs
    obtain ⟨j, hj, rfl⟩ := hs
    exact ⟨hi, rfl⟩
  | append o' t =>
    simp only [step, append, Option.map_eq_some_iff] at hs
    obtain ⟨j, hj, rfl⟩ := hs
    refine ⟨?_, rfl⟩
    simp only [Function.update_apply]
    split_ifs with c
    · rw [← c]
      exact hi
    · exact hi
  | what o' =>
    simp only [step, what, Option.map_map, Option.map_eq_some_iff] at hs
    obtain ⟨j, hj, rfl⟩ := hs
    have c : i ≠ j := fun e => hk (by rw [hj, e])
    simp only [Function.comp, Function.update_of_ne c, hi, true_and]
    rw [Function.update_of_ne hp.ne]
    exact free_other fun e => c (h.own i j p hi e)
  | destroy o' =>
    simp only [step, destroy, Option.map_eq_some_iff] at hs
    obtain ⟨j, hj, rfl⟩ := hs
    split_ifs with c
    · exact ⟨hi, rfl⟩
    · have d : i ≠ j := fun e => by
        obtain ⟨o'', h1, h2⟩ := hk (by rw [hj, e])
        exact c ⟨o'', by rw [Function.update_of_ne h1, h2, e]⟩
      simp only [Function.update_of_ne d, hi, true_and]
      exact free_other fun e => d (h.own i j p hi e)

/-- A history of such operations. -/
inductive Quiet (i : ℕ) : State → State → Prop
  | none (s : State) : Quiet i s s
  | step {s s' s'' : State} {op : Op} : step s op = some s' → Keeps s i op → Quiet i s' s'' → Quiet i s s''

/-- **C132, what is returned.** It can be read, unchanged, until `what` is called again for the exception or one of its copies, or the last of
them ends; also after more was appended and after the exception itself, but not all copies, ended. -/
theorem pointer_partial {s s' s'' : State} {o i p : ℕ} (h : Sound s) (ho : s.objs o = some i) (hw : what o s = some (s', p)) (hq : Quiet i s' s'') :
    s''.bufs p = text s o := by
  have hs' : Sound s' := sound_step (op := .what o) h (by simp [step, hw])
  have e := (what_text hw).1
  have hb : (s'.impls i).buffer = some p := by
    simp only [what, ho, Option.map_some, Option.some.injEq, Prod.mk.injEq] at hw
    obtain ⟨rfl, rfl⟩ := hw
    simp
  rw [e]
  clear e hw
  induction hq with
  | none => rfl
  | step h1 hk _ ih =>
    obtain ⟨h2, h3⟩ := step_keeps hs' h1 hb hk
    rw [ih (sound_step hs' h1) h2, h3]

/-- **C132, refuted.** `what` is `const`, but the second call frees what the first one returned. -/
theorem pointer_refuted {s s' s'' : State} {o p q : ℕ} (h : Sound s) (h1 : what o s = some (s', p)) (h2 : what o s' = some (s'', q)) :
    s''.bufs p = none := by
  simp only [what, Option.map_eq_some_iff, Prod.mk.injEq] at h1
  obtain ⟨i, hi, rfl, rfl⟩ := h1
  simp only [what, hi, Option.map_some, Option.some.injEq, Prod.mk.injEq] at h2
  obtain ⟨rfl, rfl⟩ := h2
  simp [free]

/-- Two exceptions, a copy of the first, something appended to the copy and the end of the original: a history. -/
example (a b f g t : Text) : ∃ s, History empty [.create 7 a f, .create 9 b g, .copy 0, .append 2 t, .destroy 0] s ∧ text s 2 = some (header 7 a f ++ t) ∧
    Sound s := by
  have key : ∃ s, History empty [.create 7 a f, .create 9 b g, .copy 0, .append 2 t] s ∧ s.objs 0 = some 0 ∧ s.objs 2 = some 0 ∧
      (s.impls 0).stream = header 7 a f ++ t := by
    refine ⟨_, .step rfl (.step rfl (.step rfl (.step rfl (.none _)))), ?_, ?_, ?_⟩ <;> simp [create, empty]
  obtain ⟨s, h, h0, h2, ht⟩ := key
  have hs := h.sound sound_empty
  obtain ⟨s', hd⟩ : ∃ s', step s (.destroy 0) = some s' := ⟨_, destroy_copied h0 h2 (by decide)⟩
  have join : ∀ {s s' s'' : State} {l : List Op} {op : Op}, History s l s' → step s' op = some s'' → History s (l ++ [op]) s'' := by
    intro s s' s'' l op h he
    induction h with
    | none => exact .step he (.none _)
    | step h1 _ ih => exact .step h1 (ih he)
  obtain ⟨e1, e2⟩ := step_text hs hd h2 (by simp)
  exact ⟨s', join h hd, by simp [text, e1, e2, ht, added], sound_step hs hd⟩

/-- A result of `what` that a second call frees, and one that is kept while something is appended. -/
example (a f t : Text) : (∃ s s' s'' p q, History empty [.create 7 a f] s ∧ what 0 s = some (s', p) ∧ what 0 s' = some (s'', q) ∧ s''.bufs p = none) ∧
    ∃ s s' s'' p, what 0 s = some (s', p) ∧ append 0 t s' = some s'' ∧ s''.bufs p = some (header 7 a f) ∧ text s'' 0 = some (header 7 a f ++ t) := by
  have hs : Sound (create 7 a f empty).1 := sound_step (op := .create 7 a f) sound_empty rfl
  have ho : (create 7 a f empty).1.objs 0 = some 0 := by simp [create, empty]
  refine ⟨⟨_, _, _, _, _, .step rfl (.none _), rfl, rfl, pointer_refuted hs (o := 0) rfl rfl⟩, (create 7 a f empty).1, _, _, _, rfl, rfl, ?_, ?_⟩ <;>
    simp [create, empty, text, free]

end

end DW.Props.ExceptionP
