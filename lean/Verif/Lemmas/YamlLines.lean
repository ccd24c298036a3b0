import Verif.Lemmas.YamlText

set_option linter.unusedSectionVars false

/-!
# Lemmas about the lines of saved trajectories
-/

namespace Verif.IO

open Verif.Spec

variable {K : Type}

abbrev blanks (n : ℕ) : List Char := List.replicate n ' '

/-- Text without blanks around it and without a comment. -/
structure Content (s : List Char) : Prop where
  ne : s ≠ []
  first : s.head? ≠ some ' '
  nohash : '#' ∉ s
  last : s.getLast? ≠ some ' '

theorem takeWhile_blanks (c : ℕ) (s : List Char) (h : s.head? ≠ some ' ') : (blanks c ++ s).takeWhile isBlank = blanks c := by
  induction c with
  | zero =>
    cases s with
    | nil => rfl
    | cons a s =>
      have : isBlank a = false := by
        have : a ≠ ' ' := fun e => h (by rw [e]; rfl)
        simp [isBlank, this]
      simp [this]
  | succ c ih =>
    rw [show blanks (c + 1) = ' ' :: blanks c from rfl, List.cons_append, List.takeWhile_cons_of_pos (by rfl), ih]

theorem dropWhile_blanks (c : ℕ) (s : List Char) (h : s.head? ≠ some ' ') : (blanks c ++ s).dropWhile isBlank = s := by
  induction c with
  | zero =>
    cases s with
    | nil => rfl
    | cons a s =>
      have : isBlank a = false := by
        have : a ≠ ' ' := fun e => h (by rw [e]; rfl)
        simp [isBlank, this]
      simp [this]
  | succ c ih =>
    rw [show blanks (c + 1) = ' ' :: blanks c from rfl, List.cons_append, List.dropWhile_cons_of_pos (by rfl), ih]

theorem stripComment_self (b : Bool) (s : List Char) (h : '#' ∉ s) : stripComment b s = s := by
  induction s generalizing b with
  | nil => rfl
  | cons c s ih =>
    have hc : c ≠ '#' := fun e => h (by simp [e])
    rw [stripComment, if_neg (fun e => hc e.2), ih _ fun hm => h (by simp [hm])]

theorem stripComment_tail (b : Bool) (s : List Char) (n : ℕ) (t : List Char) (h : '#' ∉ s) :
    stripComment b (s ++ (blanks (n + 1) ++ '#' :: t)) = s ++ blanks (n + 1) := by
  induction s generalizing b with
  | nil =>
    simp only [List.nil_append]
    have : ∀ (n : ℕ) (b : Bool), (n = 0 → b = true) → stripComment b (blanks n ++ '#' :: t) = blanks n := by
      intro n
      induction n with
      | zero =>
        intro b hb
        simp [stripComment, hb rfl]
      | succ n ih =>
        intro b _
        rw [show blanks (n + 1) = ' ' :: blanks n from rfl, List.cons_append, stripComment, if_neg (by simp), ih (isBlank ' ') (fun _ => rfl)]
    exact this (n + 1) b (by simp)
  | cons c s ih =>
    have hc : c ≠ '#' := fun e => h (by simp [e])
    rw [List.cons_append, stripComment, if_neg (fun e => hc e.2), ih _ fun hm => h (by simp [hm])]
    rfl

theorem rdropWhile_blanks (s : List Char) (n : ℕ) (h : s.getLast? ≠ some ' ') : (s ++ blanks n).rdropWhile isBlank = s := by
  induction n with
  | zero =>
    rw [show s ++ blanks 0 = s by simp]
    rw [List.rdropWhile_eq_self_iff]
    intro hl
    rw [List.getLast?_eq_getLast_of_ne_nil hl] at h
    have : s.getLast hl ≠ ' ' := fun e => h (by rw [e])
    simp [isBlank, this]
  | succ n ih =>
    rw [show blanks (n + 1) = blanks n ++ [' '] from List.replicate_succ', ← List.append_assoc, List.rdropWhile_concat_pos _ _ _ (by rfl), ih]

/-- Every text is what remains without the blanks at its end, and these. -/
theorem split_blanks (s : List Char) : ∃ u n, s = u ++ blanks n ∧ u.getLast? ≠ some ' ' := by
  induction s using List.reverseRecOn with
  | nil => exact ⟨[], 0, rfl, by simp⟩
  | append_singleton s c ih =>
    by_cases hc : c = ' '
    · obtain ⟨u, n, rfl, hu⟩ := ih
      exact ⟨u, n + 1, by rw [hc, List.append_assoc, ← List.replicate_succ'], hu⟩
    · exact ⟨s ++ [c], 0, by simp, by simpa using hc⟩

theorem parseLine_blank (nt : NumberText K) (σ : Parse K) (n : ℕ) : parseLine nt σ (blanks n) = .ok σ := by
  have h := dropWhile_blanks n [] (by simp)
  rw [List.append_nil] at h
  simp only [parseLine, h, stripComment]
  rfl

theorem parseLine_plain (nt : NumberText K) (σ : Parse K) (c n : ℕ) (s : List Char) (h : Content s) :
    parseLine nt σ (blanks c ++ (s ++ blanks n)) = place nt s.length c s (σ.closeTo c) := by
  have hh : (s ++ blanks n).head? ≠ some ' ' := by
    cases hs : s with
    | nil => exact absurd hs h.ne
    | cons a s' => have := h.first; rw [hs] at this; simpa using this
  have hn : '#' ∉ s ++ blanks n := by
    intro hm
    rcases List.mem_append.mp hm with hm | hm
    · exact h.nohash hm
    · have := List.eq_of_mem_replicate hm; cases this
  simp only [parseLine, dropWhile_blanks c _ hh, takeWhile_blanks c _ hh, stripComment_self _ _ hn, rdropWhile_blanks s n h.last, List.length_replicate]
  rw [if_neg h.ne]

theorem parseLine_comment (nt : NumberText K) (σ : Parse K) (c n : ℕ) (s t : List Char) (h : Content s) :
    parseLine nt σ (blanks c ++ (s ++ (blanks (n + 1) ++ '#' :: t))) = place nt s.length c s (σ.closeTo c) := by
  have hh : (s ++ (blanks (n + 1) ++ '#' :: t)).head? ≠ some ' ' := by
    cases hs : s with
    | nil => exact absurd hs h.ne
    | cons a s' => have := h.first; rw [hs] at this; simpa using this
  simp only [parseLine, dropWhile_blanks c _ hh, takeWhile_blanks c _ hh, stripComment_tail _ _ _ _ h.nohash, rdropWhile_blanks s _ h.last, List.length_replicate]
  rw [if_neg h.ne]

/-! ### Keys -/

/-- The text of a key. -/
structure KeyText (k : List Char) : Prop where
  ne : k ≠ []
  chars : ∀ c ∈ k, c ≠ ':' ∧ c ≠ ' ' ∧ c ≠ '#' ∧ c ≠ '-' ∧ c ≠ '[' ∧ c ≠ '\n'

theorem KeyText.take {k : List Char} (h : KeyText k) {m : ℕ} (hm : m ≠ 0) : KeyText (k.take m) :=
  ⟨by
    cases hk : k with
    | nil => exact absurd hk h.ne
    | cons a k =>
      cases m with
      | zero => exact absurd rfl hm
      | succ m => simp, fun c hc => h.chars c (List.mem_of_mem_take hc)⟩

theorem KeyText.content {k : List Char} (h : KeyText k) : Content k :=
  ⟨h.ne, fun e => (h.chars ' ' (List.mem_of_head? e)).2.1 rfl, fun hm => (h.chars '#' hm).2.2.1 rfl, fun e => (h.chars ' ' (List.mem_of_getLast? e)).2.1 rfl⟩

theorem KeyText.content_colon {k : List Char} (h : KeyText k) : Content (k ++ [':']) := by
  refine ⟨by simp, ?_, ?_, by simp⟩
  · cases hk : k with
    | nil => exact absurd hk h.ne
    | cons a k => have := h.content.first; rw [hk] at this; simpa using this
  · simp [h.content.nohash]

theorem takeWhile_key {k : List Char} (h : KeyText k) (r : List Char) : (k ++ ':' :: r).takeWhile (· ≠ ':') = k ∧ (k ++ ':' :: r).dropWhile (· ≠ ':') = ':' :: r := by
  have : ∀ k : List Char, (∀ c ∈ k, c ≠ ':') → (k ++ ':' :: r).takeWhile (· ≠ ':') = k ∧ (k ++ ':' :: r).dropWhile (· ≠ ':') = ':' :: r := by
    intro k
    induction k with
    | nil => intro _; simp
    | cons a k ih =>
      intro hc
      have ha : a ≠ ':' := hc a (by simp)
      obtain ⟨h1, h2⟩ := ih fun c hc' => hc c (by simp [hc'])
      rw [List.cons_append, List.takeWhile_cons_of_pos (by simpa using ha), List.dropWhile_cons_of_pos (by simpa using ha), h1, h2]
      exact ⟨rfl, rfl⟩
  exact this k fun c hc => (h.chars c hc).1

theorem splitKey_colon {k : List Char} (h : KeyText k) : splitKey (k ++ [':']) = some (String.ofList k, []) := by
  unfold splitKey
  obtain ⟨h1, h2⟩ := takeWhile_key h []
  rw [h2, h1]
  simp

theorem splitKey_value {k : List Char} (h : KeyText k) (v : List Char) (hv : v.head? ≠ some ' ') : splitKey (k ++ ':' :: ' ' :: v) = some (String.ofList k, v) := by
  unfold splitKey
  obtain ⟨h1, h2⟩ := takeWhile_key h (' ' :: v)
  have h3 := dropWhile_blanks 1 v hv
  rw [h2, h1]
  simp only [List.head?_cons, or_true, if_true]
  rw [show (' ' :: v) = blanks 1 ++ v from rfl, h3]

theorem splitKey_none {k : List Char} (h : KeyText k) : splitKey k = none := by
  have : k.dropWhile (· ≠ ':') = [] := List.dropWhile_eq_nil_iff.mpr fun c hc => by simpa using (h.chars c hc).1
  unfold splitKey
  rw [this]

theorem place_start {k : List Char} (h : KeyText k) (nt : NumberText K) (f col : ℕ) (r : List Char) (σ : Parse K) :
    place nt (f + 1) col (k ++ r) σ = (match splitKey (k ++ r) with
      | some (k, []) => σ.key col k
      | some (k, r) => do value nt (← σ.key col k) (col + 1) r
      | none => value nt σ col (k ++ r)) := by
  cases hk : k with
  | nil => exact absurd hk h.ne
  | cons a k' =>
    have ha := h.chars a (by rw [hk]; simp)
    simp only [List.cons_append, place]
    rw [if_neg (fun e => ha.2.2.2.1 e.1), if_neg ha.2.2.2.2.1]
    rfl

theorem place_key {k : List Char} (h : KeyText k) (nt : NumberText K) (f col : ℕ) (σ : Parse K) :
    place nt (f + 1) col (k ++ [':']) σ = σ.key col (String.ofList k) := by
  rw [place_start h, splitKey_colon h]

theorem place_key_value {k : List Char} (h : KeyText k) (nt : NumberText K) (f col : ℕ) (σ : Parse K) (v : List Char) (hne : v ≠ []) (hv : v.head? ≠ some ' ')
    (hb : v.head? ≠ some '[') :
    place nt (f + 1) col (k ++ ':' :: ' ' :: v) σ = (do (← σ.key col (String.ofList k)).give (col + 1) (scalarOf nt v)) := by
  rw [place_start h, splitKey_value h v hv]
  cases v with
  | nil => exact absurd rfl hne
  | cons a v =>
    have : ∀ τ : Parse K, value nt τ (col + 1) (a :: v) = τ.give (col + 1) (scalarOf nt (a :: v)) := by
      intro τ
      unfold value
      split
      · rename_i r heq
        exact absurd (by rw [heq]; rfl) hb
      · rfl
    simp only [this]

theorem place_word {k : List Char} (h : KeyText k) (nt : NumberText K) (f col : ℕ) (σ : Parse K) :
    place nt (f + 1) col k σ = σ.give col (scalarOf nt k) := by
  have := place_start h nt f col [] σ
  rw [List.append_nil] at this
  rw [this, splitKey_none h]
  simp only
  cases hk : k with
  | nil => exact absurd hk h.ne
  | cons a k' =>
    have ha := h.chars a (by rw [hk]; simp)
    unfold value
    split
    · rename_i r heq
      exact absurd (List.cons.inj heq).1 ha.2.2.2.2.1
    · rfl

theorem place_dash (nt : NumberText K) (f col : ℕ) (σ : Parse K) : place nt (f + 1) col ['-'] σ = σ.item col := by
  have : place nt (f + 1) col ['-'] σ = (do place nt f (col + 1) [] (← σ.item col)) := by
    rw [place, if_pos ⟨rfl, .inl rfl⟩]
    rfl
  rw [this]
  cases σ.item col with
  | error e => rfl
  | ok τ => cases f <;> rfl

theorem place_dash_more (nt : NumberText K) (f col : ℕ) (σ : Parse K) (s : List Char) (hs : s.head? ≠ some ' ') :
    place nt (f + 1) col ('-' :: ' ' :: s) σ = (do place nt f (col + 2) s (← σ.item col)) := by
  have h1 := takeWhile_blanks 1 s hs
  have h2 := dropWhile_blanks 1 s hs
  rw [show blanks 1 ++ s = ' ' :: s from rfl] at h1 h2
  have : place nt (f + 1) col ('-' :: ' ' :: s) σ =
      (do place nt f (col + 1 + ((' ' :: s).takeWhile isBlank).length) ((' ' :: s).dropWhile isBlank) (← σ.item col)) := by
    rw [place]
    rw [if_pos ⟨rfl, .inr rfl⟩]
  rw [this, h1, h2]
  rfl

end Verif.IO
