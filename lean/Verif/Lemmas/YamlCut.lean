import Verif.Lemmas.YamlRead

set_option linter.unusedSectionVars false

/-!
# What is left of a document that is cut off
-/

namespace Verif.IO

open Verif.Spec

section Lines
variable {K : Type}

/-- Every beginning of the lines `ls` is acceptable when they are read from the state `σ` after the lines `pre`. -/
def Cuts (nt : NumberText K) (G : List (List Char) → Res (Parse K) → Prop) : List (List Char) → Parse K → List (List Char) → Prop
  | _, _, [] => True
  | pre, σ, l :: ls => (∀ j, G (pre ++ [l.take j]) (parseLine nt σ (l.take j))) ∧ ∃ τ, parseLine nt σ l = .ok τ ∧ Cuts nt G (pre ++ [l]) τ ls

theorem cuts_append (nt : NumberText K) (G : List (List Char) → Res (Parse K) → Prop) (pre l₁ l₂ : List (List Char)) (σ τ : Parse K) (h1 : Cuts nt G pre σ l₁)
    (hf : l₁.foldlM (parseLine nt) σ = .ok τ) (h2 : Cuts nt G (pre ++ l₁) τ l₂) : Cuts nt G pre σ (l₁ ++ l₂) := by
  induction l₁ generalizing σ pre with
  | nil =>
    have : σ = τ := Except.ok.inj hf
    subst this
    rw [List.append_nil] at h2
    exact h2
  | cons l ls ih =>
    obtain ⟨hj, ρ, hρ, hc⟩ := h1
    rw [List.foldlM_cons, hρ] at hf
    exact ⟨hj, ρ, hρ, ih (pre ++ [l]) ρ hc hf (by simpa using h2)⟩

theorem cuts_use (nt : NumberText K) (G : List (List Char) → Res (Parse K) → Prop) (pre ls : List (List Char)) (σ : Parse K) (h : Cuts nt G pre σ ls) (i j : ℕ)
    (hi : i < ls.length) : G (pre ++ (ls.take i ++ [(ls[i]).take j])) ((ls.take i ++ [(ls[i]).take j]).foldlM (parseLine nt) σ) := by
  induction ls generalizing σ i pre with
  | nil => simp at hi
  | cons l ls ih =>
    obtain ⟨hj, τ, hτ, hc⟩ := h
    cases i with
    | zero =>
      have := hj j
      simp only [List.take_zero, List.nil_append, List.getElem_cons_zero, List.foldlM_cons, List.foldlM_nil]
      cases hp : parseLine nt σ (l.take j) with
      | error e => rw [hp] at this; exact this
      | ok ρ => rw [hp] at this; exact this
    | succ i =>
      have := ih (pre ++ [l]) τ hc i (by simpa using hi)
      simp only [List.take_succ_cons, List.cons_append, List.foldlM_cons, hτ, List.getElem_cons_succ]
      rw [List.append_assoc] at this
      exact this

/-- The mapping of the document. -/
def top : Frame K := .map 0 [] "segments" none

/-- In the list of segments. -/
def stB (ys : List (Yaml K)) (v : Option (Yaml K)) : Parse K := ⟨[.seq 2 ys v, top], none⟩

/-- In a segment. -/
def stM (ys : List (Yaml K)) (d : List (String × Yaml K)) (k : String) (v : Option (Yaml K)) : Parse K := ⟨[.map 4 d k v, .seq 2 ys none, top], none⟩

/-- In the list of coefficients. -/
def stR (ys : List (Yaml K)) (d : List (String × Yaml K)) (rows : List (Yaml K)) (v : Option (Yaml K)) : Parse K :=
  ⟨[.seq 6 rows v, .map 4 d "coefficients" none, .seq 2 ys none, top], none⟩

theorem finish_stB (ys : List (Yaml K)) (v : Option (Yaml K)) : (stB ys v).finish = docOf (ys ++ [v.getD .null]) := rfl

theorem finish_stM (ys : List (Yaml K)) (d : List (String × Yaml K)) (k : String) (v : Option (Yaml K)) :
    (stM ys d k v).finish = docOf (ys ++ [.map (d ++ [(k, v.getD .null)])]) := rfl

theorem finish_stR (ys : List (Yaml K)) (d : List (String × Yaml K)) (rows : List (Yaml K)) (v : Option (Yaml K)) :
    (stR ys d rows v).finish = docOf (ys ++ [.map (d ++ [("coefficients", .seq (rows ++ [v.getD .null]))])]) := rfl

/-- The state before an entry of the list of segments. -/
def Ready (σ : Parse K) (ys : List (Yaml K)) : Prop := (σ.closeTo 2).item 2 = .ok (stB ys none)

theorem ready_stM (ys : List (Yaml K)) (d : List (String × Yaml K)) (k : String) (v : Option (Yaml K)) :
    Ready (stM ys d k v) (ys ++ [.map (d ++ [(k, v.getD .null)])]) := rfl

theorem ready_stR (ys : List (Yaml K)) (d : List (String × Yaml K)) (rows : List (Yaml K)) (v : Option (Yaml K)) :
    Ready (stR ys d rows v) (ys ++ [.map (d ++ [("coefficients", .seq (rows ++ [v.getD .null]))])]) := rfl

theorem digits_content (ds : List Char) (hne : ds ≠ []) (hd : ∀ c ∈ ds, c.isDigit = true) (m : ℕ) (hm : m ≠ 0) :
    ds.take m ≠ [] ∧ (∀ c ∈ ds.take m, c.isDigit = true) := by
  refine ⟨?_, fun c hc => hd c (List.mem_of_mem_take hc)⟩
  cases ds with
  | nil => exact absurd rfl hne
  | cons a ds =>
    cases m with
    | zero => exact absurd rfl hm
    | succ m => simp

theorem digits_first (ds : List Char) (hd : ∀ c ∈ ds, c.isDigit = true) : ds.head? ≠ some ' ' ∧ ds.head? ≠ some '[' ∧ '#' ∉ ds ∧ ds.getLast? ≠ some ' ' :=
  ⟨fun e => (isDigit_ne (hd _ (List.mem_of_head? e))).1 rfl, fun e => (isDigit_ne (hd _ (List.mem_of_head? e))).2.2.2.1 rfl,
    fun hm => (isDigit_ne (hd _ hm)).2.1 rfl, fun e => (isDigit_ne (hd _ (List.mem_of_getLast? e))).1 rfl⟩

/-- The content of `key: number`. -/
theorem content_value {k ds : List Char} (h : KeyText k) (hne : ds ≠ []) (hd : ∀ c ∈ ds, c.isDigit = true) : Content (k ++ ':' :: ' ' :: ds) := by
  obtain ⟨h1, h2, h3, h4⟩ := digits_first ds hd
  refine ⟨by simp, ?_, ?_, ?_⟩
  · cases hk : k with
    | nil => exact absurd hk h.ne
    | cons a k => have := h.content.first; rw [hk] at this; simpa using this
  · intro hm
    simp only [List.mem_append, List.mem_cons] at hm
    rcases hm with hm | hm | hm | hm
    · exact h.content.nohash hm
    · cases hm
    · cases hm
    · exact h3 hm
  · rw [List.getLast?_append, List.getLast?_cons, List.getLast?_cons]
    rw [List.getLast?_eq_getLast_of_ne_nil hne] at h4 ⊢
    simpa using h4

/-- The next key in a segment. -/
theorem key_stM (ys : List (Yaml K)) (d : List (String × Yaml K)) (k k' : String) (v : Option (Yaml K)) :
    ((stM ys d k v).closeTo 4).key 4 k' = .ok (stM ys (d ++ [(k, v.getD .null)]) k' none) := rfl

theorem give_stM (ys : List (Yaml K)) (d : List (String × Yaml K)) (k : String) (y : Yaml K) : (stM ys d k none).give 5 y = .ok (stM ys d k (some y)) := rfl

/-- Where a key is expected there is no place for a scalar. -/
theorem give_stM_exc (ys : List (Yaml K)) (d : List (String × Yaml K)) (k : String) (v : Option (Yaml K)) (y : Yaml K) :
    ((stM ys d k v).closeTo 4).give 4 y = .error .exc := by
  have : ((stM ys d k v).closeTo 4).isOpen 4 = false := by
    show (v.isNone && decide (4 < 4)) = false
    simp
  unfold Parse.give
  rw [this]
  rfl

variable (nt : NumberText K)

/-- `    key:` in a segment. -/
theorem line_key {k : List Char} (h : KeyText k) (ys : List (Yaml K)) (d : List (String × Yaml K)) (k₀ : String) (v : Option (Yaml K)) (n : ℕ) :
    parseLine nt (stM ys d k₀ v) (blanks 4 ++ (k ++ [':'] ++ blanks n)) = .ok (stM ys (d ++ [(k₀, v.getD .null)]) (String.ofList k) none) := by
  rw [parseLine_plain nt _ 4 n _ h.content_colon, show (k ++ [':']).length = k.length + 1 by simp, place_key h, key_stM]

/-- `    key: 12`. -/
theorem line_value {k ds : List Char} (h : KeyText k) (hne : ds ≠ []) (hd : ∀ c ∈ ds, c.isDigit = true) (ys : List (Yaml K)) (d : List (String × Yaml K)) (k₀ : String)
    (v : Option (Yaml K)) (n : ℕ) :
    parseLine nt (stM ys d k₀ v) (blanks 4 ++ (k ++ ':' :: ' ' :: ds ++ blanks n)) = .ok (stM ys (d ++ [(k₀, v.getD .null)]) (String.ofList k) (some (scalarOf nt ds))) := by
  obtain ⟨h1, h2, _, _⟩ := digits_first ds hd
  rw [parseLine_plain nt _ 4 n _ (content_value h hne hd), show (k ++ ':' :: ' ' :: ds).length = (k.length + ds.length + 1) + 1 by simp; omega,
    place_key_value h _ _ _ _ ds hne h1 h2, key_stM]
  rfl

/-- `    key: 12  # comment`. -/
theorem line_value_comment {k ds : List Char} (h : KeyText k) (hne : ds ≠ []) (hd : ∀ c ∈ ds, c.isDigit = true) (ys : List (Yaml K)) (d : List (String × Yaml K)) (k₀ : String)
    (v : Option (Yaml K)) (n : ℕ) (t : List Char) :
    parseLine nt (stM ys d k₀ v) (blanks 4 ++ (k ++ ':' :: ' ' :: ds ++ (blanks (n + 1) ++ '#' :: t))) =
      .ok (stM ys (d ++ [(k₀, v.getD .null)]) (String.ofList k) (some (scalarOf nt ds))) := by
  obtain ⟨h1, h2, _, _⟩ := digits_first ds hd
  rw [parseLine_comment nt _ 4 n _ t (content_value h hne hd), show (k ++ ':' :: ' ' :: ds).length = (k.length + ds.length + 1) + 1 by simp; omega,
    place_key_value h _ _ _ _ ds hne h1 h2, key_stM]
  rfl

/-- `    ke`: refused. -/
theorem line_word {k : List Char} (h : KeyText k) (ys : List (Yaml K)) (d : List (String × Yaml K)) (k₀ : String) (v : Option (Yaml K)) (n : ℕ) :
    parseLine nt (stM ys d k₀ v) (blanks 4 ++ (k ++ blanks n)) = .error .exc := by
  have hl : k.length = (k.length - 1) + 1 := by
    have := List.length_pos_iff.mpr h.ne
    omega
  rw [parseLine_plain nt _ 4 n _ h.content, hl, place_word h, give_stM_exc]

/-- A beginning of `    key:`. -/
theorem cut_key {k : List Char} (h : KeyText k) (ys : List (Yaml K)) (d : List (String × Yaml K)) (k₀ : String) (v : Option (Yaml K)) (j : ℕ) :
    parseLine nt (stM ys d k₀ v) ((blanks 4 ++ (k ++ [':'])).take j) = .ok (stM ys d k₀ v) ∨
    parseLine nt (stM ys d k₀ v) ((blanks 4 ++ (k ++ [':'])).take j) = .error .exc ∨
    parseLine nt (stM ys d k₀ v) ((blanks 4 ++ (k ++ [':'])).take j) = .ok (stM ys (d ++ [(k₀, v.getD .null)]) (String.ofList k) none) := by
  rw [List.take_append]
  by_cases h4 : j ≤ 4
  · left
    rw [show j - (blanks 4).length = 0 by simp; omega, List.take_zero, List.append_nil, List.take_replicate]
    exact parseLine_blank nt _ _
  · right
    rw [List.take_of_length_le (by simp; omega), show (blanks 4).length = 4 from rfl, List.take_append]
    by_cases hk : j - 4 ≤ k.length
    · left
      rw [show j - 4 - k.length = 0 by omega, List.take_zero, List.append_nil]
      have := line_word nt (h.take (m := j - 4) (by omega)) ys d k₀ v 0
      simpa using this
    · right
      rw [List.take_of_length_le (by omega), List.take_of_length_le (by simp; omega)]
      have := line_key nt h ys d k₀ v 0
      simpa using this

/-- A beginning of `    key: 12 …`, where what follows the number is blank or a comment. -/
theorem cut_value {k ds : List Char} (h : KeyText k) (hne : ds ≠ []) (hd : ∀ c ∈ ds, c.isDigit = true) (t : List Char)
    (ht : ∀ j, (∃ n, t.take j = blanks n) ∨ ∃ n u, t.take j = blanks (n + 1) ++ '#' :: u) (ys : List (Yaml K)) (d : List (String × Yaml K)) (k₀ : String)
    (v : Option (Yaml K)) (j : ℕ) :
    parseLine nt (stM ys d k₀ v) ((blanks 4 ++ (k ++ ':' :: ' ' :: ds ++ t)).take j) = .ok (stM ys d k₀ v) ∨
    parseLine nt (stM ys d k₀ v) ((blanks 4 ++ (k ++ ':' :: ' ' :: ds ++ t)).take j) = .error .exc ∨
    ∃ w, parseLine nt (stM ys d k₀ v) ((blanks 4 ++ (k ++ ':' :: ' ' :: ds ++ t)).take j) = .ok (stM ys (d ++ [(k₀, v.getD .null)]) (String.ofList k) w) := by
  by_cases h1 : j ≤ 4 + (k.length + 1)
  · have e : (blanks 4 ++ (k ++ ':' :: ' ' :: ds ++ t)).take j = (blanks 4 ++ (k ++ [':'])).take j := by
      rw [show blanks 4 ++ (k ++ ':' :: ' ' :: ds ++ t) = (blanks 4 ++ (k ++ [':'])) ++ (' ' :: ds ++ t) by simp,
        List.take_append_of_le_length (by simp; omega)]
    rw [e]
    rcases cut_key nt h ys d k₀ v j with h | h | h
    · exact .inl h
    · exact .inr (.inl h)
    · exact .inr (.inr ⟨_, h⟩)
  · right; right
    obtain ⟨m, rfl⟩ : ∃ m, j = (4 + (k.length + 2)) + m := ⟨j - (4 + (k.length + 2)), by omega⟩
    have e : (blanks 4 ++ (k ++ ':' :: ' ' :: ds ++ t)).take (4 + (k.length + 2) + m) = blanks 4 ++ (k ++ ':' :: ' ' :: ((ds ++ t).take m)) := by
      have hlen : (blanks 4 ++ (k ++ [':', ' '])).length = 4 + (k.length + 2) := by simp
      rw [show blanks 4 ++ (k ++ ':' :: ' ' :: ds ++ t) = (blanks 4 ++ (k ++ [':', ' '])) ++ (ds ++ t) by simp, ← hlen, List.take_length_add_append]
      simp
    rw [e]
    by_cases hm : m = 0
    · subst hm
      refine ⟨none, ?_⟩
      have := line_key nt h ys d k₀ v 1
      simpa using this
    · by_cases hm' : m ≤ ds.length
      · obtain ⟨hne', hd'⟩ := digits_content ds hne hd m hm
        rw [List.take_append_of_le_length hm']
        have := line_value nt h hne' hd' ys d k₀ v 0
        exact ⟨_, by simpa using this⟩
      · obtain ⟨i, rfl⟩ : ∃ i, m = ds.length + i := ⟨m - ds.length, by omega⟩
        rw [List.take_length_add_append]
        rcases ht i with ⟨n, hn⟩ | ⟨n, u, hn⟩
        · rw [hn]
          have := line_value nt h hne hd ys d k₀ v n
          exact ⟨_, by simpa using this⟩
        · rw [hn]
          have := line_value_comment nt h hne hd ys d k₀ v n u
          exact ⟨_, by simpa using this⟩

theorem keyN : KeyText ['N'] := ⟨by simp, by simp⟩
theorem keyD : KeyText ['D'] := ⟨by simp, by simp⟩
theorem keyTime : KeyText "time".toList := ⟨by simp, by simp⟩
theorem keyCoefficients : KeyText "coefficients".toList := ⟨by simp, by simp⟩
theorem keySegments : KeyText "segments".toList := ⟨by simp, by simp⟩

/-- A beginning of `  - N: 12`. -/
theorem cut_first {ds : List Char} (hne : ds ≠ []) (hd : ∀ c ∈ ds, c.isDigit = true) (σ : Parse K) (ys : List (Yaml K)) (hσ : Ready σ ys) (j : ℕ) :
    ((∃ m, ("  - N: ".toList ++ ds).take j = blanks m) ∧ parseLine nt σ (("  - N: ".toList ++ ds).take j) = .ok σ) ∨
    (∃ v : Option (Yaml K), IsScalar (v.getD .null) ∧ parseLine nt σ (("  - N: ".toList ++ ds).take j) = .ok (stB ys v)) ∨
    (∃ v, parseLine nt σ (("  - N: ".toList ++ ds).take j) = .ok (stM ys [] "N" v)) := by
  have hcol : ∀ s n, Content s → parseLine nt σ (blanks 2 ++ (s ++ blanks n)) = place nt s.length 2 s (σ.closeTo 2) := fun s n hs => parseLine_plain nt σ 2 n s hs
  have hpush : (stB ys none).key 4 "N" = .ok (stM ys [] "N" none) := rfl
  have hgive : ∀ y : Yaml K, (stB ys none).give 4 y = .ok (stB ys (some y)) := fun _ => rfl
  have hdash : ∀ n, parseLine nt σ (blanks 2 ++ (['-'] ++ blanks n)) = .ok (stB ys none) := by
    intro n
    rw [hcol ['-'] n ⟨by simp, by simp, by simp, by simp⟩]
    exact (place_dash nt 0 2 _).trans hσ
  have hN : ∀ n, parseLine nt σ (blanks 2 ++ ("- N:".toList ++ blanks n)) = .ok (stM ys [] "N" none) := by
    intro n
    rw [hcol _ n ⟨by simp, by simp, by simp, by simp⟩]
    have h1 : place nt 4 2 "- N:".toList (σ.closeTo 2) = (do place nt 3 4 ("N:".toList) (← (σ.closeTo 2).item 2)) := place_dash_more nt 3 2 _ "N:".toList (by simp)
    refine h1.trans ?_
    rw [show (σ.closeTo 2).item 2 = _ from hσ]
    exact (place_key keyN nt 2 4 (stB ys none)).trans hpush
  by_cases h7 : j ≤ 7
  · rw [List.take_append_of_le_length (by simpa using h7)]
    obtain rfl | rfl | rfl | rfl | rfl | rfl | rfl | rfl : j = 0 ∨ j = 1 ∨ j = 2 ∨ j = 3 ∨ j = 4 ∨ j = 5 ∨ j = 6 ∨ j = 7 := by omega
    · exact .inl ⟨⟨0, rfl⟩, parseLine_blank nt σ 0⟩
    · exact .inl ⟨⟨1, rfl⟩, parseLine_blank nt σ 1⟩
    · exact .inl ⟨⟨2, rfl⟩, parseLine_blank nt σ 2⟩
    · exact .inr (.inl ⟨none, trivial, hdash 0⟩)
    · exact .inr (.inl ⟨none, trivial, hdash 1⟩)
    · refine .inr (.inl ⟨some (scalarOf nt ['N']), scalarOf_scalar nt _, ?_⟩)
      have h0 := hcol "- N".toList 0 ⟨by simp, by simp, by simp, by simp⟩
      refine h0.trans ?_
      have h1 : place nt 3 2 "- N".toList (σ.closeTo 2) = (do place nt 2 4 ("N".toList) (← (σ.closeTo 2).item 2)) := place_dash_more nt 2 2 _ "N".toList (by simp)
      refine h1.trans ?_
      rw [show (σ.closeTo 2).item 2 = _ from hσ]
      exact (place_word keyN nt 1 4 (stB ys none)).trans (hgive _)
    · exact .inr (.inr ⟨_, hN 0⟩)
    · exact .inr (.inr ⟨_, hN 1⟩)
  · obtain ⟨m, rfl⟩ : ∃ m, j = 7 + m := ⟨j - 7, by omega⟩
    have e : ("  - N: ".toList ++ ds).take (7 + m) = blanks 2 ++ (("- N: ".toList ++ ds.take m) ++ blanks 0) := by
      rw [show 7 = ("  - N: ".toList).length from rfl, List.take_length_add_append]
      simp
      rfl
    obtain ⟨hne', hd'⟩ := digits_content ds hne hd m (by omega)
    obtain ⟨f1, f2, f3, f4⟩ := digits_first _ hd'
    have hc : Content ("- N: ".toList ++ ds.take m) := by
      refine ⟨by simp, by simp, ?_, ?_⟩
      · intro hm'
        rcases List.mem_append.mp hm' with hm' | hm'
        · simp at hm'
        · exact f3 hm'
      · rw [List.getLast?_append]
        rw [List.getLast?_eq_getLast_of_ne_nil hne'] at f4 ⊢
        simpa using f4
    refine .inr (.inr ⟨some (scalarOf nt (ds.take m)), ?_⟩)
    rw [e, hcol _ 0 hc]
    rw [show ("- N: ".toList ++ ds.take m).length = ((ds.take m).length + 3) + 2 by simp]
    have h1 : place nt (((ds.take m).length + 3) + 2) 2 ("- N: ".toList ++ ds.take m) (σ.closeTo 2) =
        (do place nt (((ds.take m).length + 3) + 1) 4 (['N'] ++ ':' :: ' ' :: ds.take m) (← (σ.closeTo 2).item 2)) :=
      place_dash_more nt _ 2 _ (['N'] ++ ':' :: ' ' :: ds.take m) (by simp)
    rw [h1, show (σ.closeTo 2).item 2 = _ from hσ]
    refine (place_key_value keyN nt ((ds.take m).length + 3) 4 (stB ys none) (ds.take m) hne' f1 f2).trans ?_
    rw [show String.ofList ['N'] = "N" from rfl, hpush]
    rfl

/-- The whole line. -/
theorem line_first {ds : List Char} (hne : ds ≠ []) (hd : ∀ c ∈ ds, c.isDigit = true) (σ : Parse K) (ys : List (Yaml K)) (hσ : Ready σ ys) :
    parseLine nt σ ("  - N: ".toList ++ ds) = .ok (stM ys [] "N" (some (scalarOf nt ds))) := by
  obtain ⟨f1, f2, f3, f4⟩ := digits_first _ hd
  have hc : Content ("- N: ".toList ++ ds) := by
    refine ⟨by simp, by simp, ?_, ?_⟩
    · intro hm'
      rcases List.mem_append.mp hm' with hm' | hm'
      · simp at hm'
      · exact f3 hm'
    · rw [List.getLast?_append]
      rw [List.getLast?_eq_getLast_of_ne_nil hne] at f4 ⊢
      simpa using f4
  have h0 := parseLine_plain nt σ 2 0 _ hc
  have e : "  - N: ".toList ++ ds = blanks 2 ++ (("- N: ".toList ++ ds) ++ blanks 0) := by
    simp
    rfl
  rw [e, h0, show ("- N: ".toList ++ ds).length = (ds.length + 3) + 2 by simp]
  have h1 : place nt ((ds.length + 3) + 2) 2 ("- N: ".toList ++ ds) (σ.closeTo 2) =
      (do place nt ((ds.length + 3) + 1) 4 (['N'] ++ ':' :: ' ' :: ds) (← (σ.closeTo 2).item 2)) :=
    place_dash_more nt _ 2 _ (['N'] ++ ':' :: ' ' :: ds) (by simp)
  rw [h1, show (σ.closeTo 2).item 2 = _ from hσ]
  refine (place_key_value keyN nt (ds.length + 3) 4 (stB ys none) ds hne f1 f2).trans ?_
  rfl

end Lines

end Verif.IO
