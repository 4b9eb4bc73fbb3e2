import Verif.Model.Constructor
import Verif.Spec.Substitution
import Verif.Proof.GrammarText

/-!
# References in constructor bodies are replaced as specified
-/

set_option autoImplicit false

namespace Verif
open Outcome

/-! ### Variables -/

theorem boundVariable_injective {i j : Nat} (h : boundVariable i = boundVariable j) : i = j := by
  have h1 := congrArg String.toList h
  simp only [boundVariable, String.toList_append, List.append_cancel_left_eq] at h1
  have h2 : Nat.toDigits 10 i = Nat.toDigits 10 j := by
    rw [← Nat.toList_repr, ← Nat.toList_repr]
    exact h1
  have := congrArg (fun l => Nat.ofDigitChars 10 l 0) h2
  simpa only [Nat.ofDigitChars_ten_toDigits] using this

/-! ### Numerals -/

theorem digit_char {d : Nat} (h : d < 10) : (Char.ofNat (48 + d)).toNat = 48 + d := by
  have hv : (48 + d).isValidChar := .inl (by omega)
  unfold Char.ofNat
  rw [dif_pos hv]
  rfl

theorem isDigit_iff (c : Char) : c.isDigit = true ↔ 48 ≤ c.toNat ∧ c.toNat ≤ 57 := by
  unfold Char.isDigit
  simp only [Bool.and_eq_true, decide_eq_true_eq, ge_iff_le, UInt32.le_iff_toNat_le]
  rfl

namespace SubstMap

theorem digits_append (s : List Char) (c : Char) : ∀ (n : Nat),
    digits n (s ++ [c]) = match digits n s with
      | some m => if c.isDigit then some (10 * m + (c.toNat - '0'.toNat)) else none
      | none => none := by
  induction s with
  | nil => intro n; rfl
  | cons d s ih =>
    intro n
    simp only [List.cons_append, digits]
    split
    · exact ih _
    · rfl

theorem digits_numeral {s : List Char} {n : Nat} (h : Spec.Numeral s n) : digits 0 s = some n := by
  induction h with
  | @digit d hd =>
    have : (Char.ofNat (48 + d)).isDigit = true := by rw [isDigit_iff, digit_char hd]; omega
    simp only [digits, this, if_true, digit_char hd, Option.some.injEq]
    show 10 * 0 + (48 + d - 48) = d
    omega
  | @more s n d _ hd ih =>
    have : (Char.ofNat (48 + d)).isDigit = true := by rw [isDigit_iff, digit_char hd]; omega
    rw [digits_append, ih]
    simp only [this, if_true, digit_char hd, Option.some.injEq]
    show 10 * n + (48 + d - 48) = 10 * n + d
    omega

theorem numeral_digits : ∀ (k : Nat) (s : List Char) (n : Nat), s.length = k → s ≠ [] →
    digits 0 s = some n → Spec.Numeral s n := by
  intro k
  induction k with
  | zero => intro s n hk hne; exact absurd (List.length_eq_zero_iff.mp hk) hne
  | succ k ih =>
    intro s n hk hne h
    rcases s.eq_nil_or_concat with rfl | ⟨t, c, rfl⟩
    · exact absurd rfl hne
    · rw [List.concat_eq_append] at *
      rw [digits_append] at h
      split at h
      · rename_i m hm
        split at h
        · rename_i hc
          injection h with h
          subst h
          rw [isDigit_iff] at hc
          have hcd : c = Char.ofNat (48 + (c.toNat - '0'.toNat)) := by
            rw [char_eq_iff, digit_char]
            · show c.toNat = 48 + (c.toNat - 48)
              omega
            · show c.toNat - 48 < 10
              omega
          have hlt : c.toNat - '0'.toNat < 10 := by
            show c.toNat - 48 < 10
            omega
          by_cases ht : t = []
          · subst ht
            cases hm
            have := Spec.Numeral.digit hlt
            rw [← hcd] at this
            simpa using this
          · have := Spec.Numeral.more (ih t m (by simpa using hk) ht hm) hlt
            rwa [← hcd] at this
        · cases h
      · cases h

theorem numeral_iff {s : List Char} {n : Nat} : Spec.Numeral s n ↔ s ≠ [] ∧ digits 0 s = some n := by
  constructor
  · intro h
    refine ⟨?_, digits_numeral h⟩
    cases h <;> simp
  · rintro ⟨h1, h2⟩
    exact numeral_digits _ s n rfl h1 h2

theorem numeral_not_plus {s : List Char} {n : Nat} (h : Spec.Numeral ('+' :: s) n) : False := by
  obtain ⟨-, h⟩ := numeral_iff.mp h
  rw [digits] at h
  have : ('+').isDigit = false := by decide
  simp [this] at h

theorem parseUsize_iff {text : String} {n : Nat} : parseUsize text = some n ↔
    (Spec.Numeral text.toList n ∨ ∃ s, text.toList = '+' :: s ∧ Spec.Numeral s n) ∧ n < 2 ^ 64 := by
  have core : ∀ cs : List Char, (match cs with
      | [] => none
      | cs =>
        match digits 0 cs with
        | some n => if n < 2 ^ 64 then some n else none
        | none => none) = some n ↔ Spec.Numeral cs n ∧ n < 2 ^ 64 := by
    intro cs
    rw [numeral_iff]
    cases cs with
    | nil => simp
    | cons c cs =>
      simp only [ne_eq, reduceCtorEq, not_false_eq_true, true_and]
      cases digits 0 (c :: cs) with
      | none => simp
      | some m =>
        simp only
        split
        · constructor
          · intro h
            injection h with h
            subst h
            exact ⟨rfl, ‹_›⟩
          · rintro ⟨h, -⟩
            exact h
        · constructor
          · intro h; cases h
          · rintro ⟨h, h'⟩
            injection h with h
            subst h
            exact absurd h' ‹_›
  have hu : parseUsize text = some n ↔ Spec.Numeral (match text.toList with
      | '+' :: cs => cs
      | cs => cs) n ∧ n < 2 ^ 64 := core _
  rw [hu]
  split
  · rename_i cs hcs
    rw [hcs]
    constructor
    · rintro ⟨h1, h2⟩
      exact ⟨.inr ⟨cs, rfl, h1⟩, h2⟩
    · rintro ⟨h1 | ⟨s, h1, h1'⟩, h2⟩
      · exact (numeral_not_plus h1).elim
      · injection h1 with _ h1
        subst h1
        exact ⟨h1', h2⟩
  · rename_i hno
    constructor
    · rintro ⟨h1, h2⟩
      exact ⟨.inl h1, h2⟩
    · rintro ⟨h1 | ⟨s, h1, h1'⟩, h2⟩
      · exact ⟨h1, h2⟩
      · exact absurd h1 (hno s)

/-! ### Labels -/

theorem lookup_setValue (m : List (String × Option Nat)) (name : String) (v : Option Nat) (x : String) :
    (setValue name v m).lookup x = if x = name ∧ (m.lookup x).isSome then some v else m.lookup x := by
  induction m with
  | nil => simp [setValue]
  | cons p m ih =>
    obtain ⟨k, w⟩ := p
    unfold setValue
    by_cases hk : k = name
    · subst hk
      rw [if_pos rfl, List.lookup_cons, List.lookup_cons]
      by_cases hx : x = k
      · subst hx; simp
      · have : (x == k) = false := by simpa using hx
        simp [this, hx]
    · rw [if_neg hk, List.lookup_cons, List.lookup_cons]
      by_cases hx : x = k
      · subst hx
        simp [hk]
      · have : (x == k) = false := by simpa using hx
        simp only [this]
        exact ih

theorem lookup_append_new (m : List (String × Option Nat)) (name : String) (v : Option Nat) (x : String)
    (h : m.lookup name = none) :
    (m ++ [(name, v)]).lookup x = if x = name then some v else m.lookup x := by
  rw [List.lookup_append]
  by_cases hx : x = name
  · subst hx
    simp [h]
  · have : (x == name) = false := by simpa using hx
    simp [List.lookup_cons, this, hx]

/-- What the map says about a name after the nodes `before`. -/
def Says (before : List ANode) (x : String) : Option (Option Nat) → Prop
  | none => ANode.production x ∉ before
  | some (some i) => Spec.NameRef before x i
  | some none => ∃ i j : Nat, i ≠ j ∧ before[i]? = some (ANode.production x) ∧ before[j]? = some (ANode.production x)

theorem says_other {before : List ANode} {x : String} {r : Option (Option Nat)} {n : ANode}
    (h : Says before x r) (hn : n ≠ .production x) : Says (before ++ [n]) x r := by
  have hget : ∀ i : Nat, (before ++ [n])[i]? = some (ANode.production x) ↔ before[i]? = some (ANode.production x) := by
    intro i
    rcases Nat.lt_or_ge i before.length with hi | hi
    · rw [List.getElem?_append_left hi]
    · rw [List.getElem?_append_right hi, List.getElem?_eq_none hi]
      constructor
      · intro h
        have := List.mem_of_getElem? h
        rw [List.mem_singleton] at this
        exact absurd this.symm hn
      · intro h; cases h
  match r, h with
  | none, h =>
    intro hm
    rcases List.mem_append.mp hm with hm | hm
    · exact h hm
    · rw [List.mem_singleton] at hm
      exact hn hm.symm
  | some (some i), ⟨h1, h2⟩ =>
    exact ⟨(hget i).mpr h1, fun j hj => h2 j ((hget j).mp hj)⟩
  | some none, ⟨i, j, h1, h2, h3⟩ =>
    exact ⟨i, j, h1, (hget i).mpr h2, (hget j).mpr h3⟩

theorem buildLoop_spec : ∀ (rest before : List ANode) (m : List (String × Option Nat)),
    (∀ x, Says before x (m.lookup x)) →
    ∀ x, Says (before ++ rest) x ((buildLoop before.length rest m).lookup x) := by
  intro rest
  induction rest with
  | nil => intro before m h x; rw [List.append_nil]; exact h x
  | cons n rest ih =>
    intro before m h
    have hstep : ∀ m', (∀ x, Says (before ++ [n]) x (m'.lookup x)) →
        ∀ x, Says (before ++ n :: rest) x ((buildLoop (before.length + 1) rest m').lookup x) := by
      intro m' h'
      have := ih (before ++ [n]) m' h'
      simpa using this
    cases n with
    | production name =>
      rw [buildLoop]
      have hlast : (before ++ [ANode.production name])[before.length]? = some (.production name) := by simp
      cases hl : m.lookup name with
      | none =>
        simp only
        apply hstep
        intro x
        rw [lookup_append_new m name _ x hl]
        by_cases hx : x = name
        · subst hx
          rw [if_pos rfl]
          refine ⟨hlast, fun j hj => ?_⟩
          have hno : ANode.production x ∉ before := by
            have := h x
            rwa [hl] at this
          rcases Nat.lt_or_ge j before.length with hj' | hj'
          · rw [List.getElem?_append_left hj'] at hj
            exact absurd (List.mem_of_getElem? hj) hno
          · have := (List.getElem?_eq_some_iff.mp hj).1
            simp only [List.length_append, List.length_singleton] at this
            omega
        · rw [if_neg hx]
          exact says_other (h x) fun e => hx (by injection e with e; exact e.symm)
      | some v =>
        simp only
        apply hstep
        intro x
        rw [lookup_setValue]
        by_cases hx : x = name
        · subst hx
          rw [if_pos ⟨rfl, by rw [hl]; rfl⟩]
          have hs := h x
          rw [hl] at hs
          have : ∃ i : Nat, before[i]? = some (ANode.production x) := by
            match v, hs with
            | none, ⟨i, _, _, h2, _⟩ => exact ⟨i, h2⟩
            | some i, ⟨h1, _⟩ => exact ⟨i, h1⟩
          obtain ⟨i, hi⟩ := this
          have hlt := (List.getElem?_eq_some_iff.mp hi).1
          refine ⟨i, before.length, by omega, ?_, hlast⟩
          rw [List.getElem?_append_left hlt]
          exact hi
        · rw [if_neg (by simp [hx])]
          exact says_other (h x) fun e => hx (by injection e with e; exact e.symm)
    | symbol s =>
      rw [buildLoop]
      · exact hstep m fun x => says_other (h x) (by simp)
      · simp
    | epsilon =>
      rw [buildLoop]
      · exact hstep m fun x => says_other (h x) (by simp)
      · simp

theorem build_says (rule : List ANode) (x : String) : Says rule x ((build rule).labelMap.lookup x) := by
  have := buildLoop_spec rule [] [] (by intro x; simp [Says]) x
  simpa [build] using this

theorem lookupLabel_iff {rule : List ANode} {x : String} {i : Nat} :
    (build rule).lookupLabel x = .ok i ↔ Spec.NameRef rule x i := by
  have h := build_says rule x
  unfold lookupLabel
  revert h
  cases (build rule).labelMap.lookup x with
  | none =>
    intro h
    simp only [reduceCtorEq, false_iff]
    rintro ⟨h1, -⟩
    exact h (List.mem_of_getElem? h1)
  | some v =>
    cases v with
    | none =>
      rintro ⟨a, b, h1, h2, h3⟩
      simp only [reduceCtorEq, false_iff]
      rintro ⟨-, h4⟩
      exact h1 ((h4 a h2).trans (h4 b h3).symm)
    | some j =>
      intro h
      simp only [pure_eq, ok.injEq]
      constructor
      · rintro rfl
        exact h
      · intro h'
        exact h'.2 j h.1

theorem lookupLabel_safe (m : SubstMap) (x : String) :
    (∃ i, m.lookupLabel x = .ok i) ∨ ∃ e, m.lookupLabel x = .err e := by
  unfold lookupLabel
  split
  · exact .inr ⟨_, rfl⟩
  · exact .inr ⟨_, rfl⟩
  · exact .inl ⟨_, rfl⟩

/-! ### Indices -/

theorem literalToIndex_iff {rule : List ANode} {text : String} {i : Nat} :
    (build rule).literalToIndex text rule = .ok i ↔ Spec.IndexRef rule text i := by
  unfold literalToIndex Spec.IndexRef
  constructor
  · intro h
    cases hp : parseUsize text with
    | none => rw [hp] at h; cases h
    | some j =>
      rw [hp] at h
      obtain ⟨h1, h2⟩ := parseUsize_iff.mp hp
      simp only at h
      split at h
      · cases h
      · obtain ⟨node, hnode, h⟩ := bind_eq_ok.mp h
        split at h
        · cases h
        · rename_i hne
          injection h with h
          subst h
          refine ⟨h1, h2, node, index_eq_ok.mp hnode, ?_⟩
          rintro rfl
          exact hne rfl
  · rintro ⟨h1, h2, node, h3, h4⟩
    rw [parseUsize_iff.mpr ⟨h1, h2⟩]
    have hlt := (List.getElem?_eq_some_iff.mp h3).1
    simp only
    rw [if_neg (by simp only [build]; omega), index_eq_ok.mpr h3]
    simp only [ok_bind]
    rw [if_neg]
    · rfl
    · cases node with
      | production _ => simp [ANode.isEpsilon]
      | symbol _ => simp [ANode.isEpsilon]
      | epsilon => exact absurd rfl h4

theorem literalToIndex_safe (rule : List ANode) (text : String) :
    (∃ i, (build rule).literalToIndex text rule = .ok i) ∨
      ∃ e, (build rule).literalToIndex text rule = .err e := by
  unfold literalToIndex
  split
  · exact .inr ⟨_, rfl⟩
  · split
    · exact .inr ⟨_, rfl⟩
    · rename_i i _ hi
      have hlt : i < rule.length := by
        simp only [build] at hi
        omega
      rw [index_eq_ok.mpr (List.getElem?_eq_getElem hlt)]
      simp only [ok_bind]
      split
      · exact .inr ⟨_, rfl⟩
      · exact .inl ⟨_, rfl⟩

/-! ### Streams -/

theorem substituteVars_complete {rule : List ANode} {body out : TokenStream} {used : List Nat}
    (h : Spec.Replaced boundVariable rule body out used) :
    (build rule).substituteVars rule body = .ok out := by
  induction h with
  | nil => rfl
  | group _ _ ih1 ih2 => simp only [substituteVars, ih1, ih2, ok_bind, pure_eq]
  | ident _ ih => simp only [substituteVars, ih, ok_bind, pure_eq]
  | literal _ ih => simp only [substituteVars, ih, ok_bind, pure_eq]
  | @punct ch joint rest rest' u hne _ ih =>
    have hno : ¬ (joint = false ∧ ch = '#') := by
      rintro ⟨h1, h2⟩
      rcases hne with h | h
      · exact h h2
      · rw [h1] at h; cases h
    rw [substituteVars.eq_def]
    simp only [hno, if_false, ih, ok_bind, pure_eq]
  | name hr _ ih =>
    rw [substituteVars, if_pos ⟨rfl, rfl⟩]
    simp only [lookupLabel_iff.mpr hr, ih, ok_bind, pure_eq]
  | index hr _ ih =>
    rw [substituteVars, if_pos ⟨rfl, rfl⟩]
    simp only [literalToIndex_iff.mpr hr, ih, ok_bind, pure_eq]

theorem substituteVars_sound {rule : List ANode} (body : TokenStream) : ∀ {out : TokenStream},
    (build rule).substituteVars rule body = .ok out →
    ∃ used, Spec.Replaced boundVariable rule body out used := by
  fun_induction substituteVars (build rule) rule body with
  | case1 => intro out h; cases h; exact ⟨_, .nil⟩
  | case2 d inner rest ih1 ih2 =>
    intro out h
    simp only [bind_eq_ok, pure_eq] at h
    obtain ⟨a, h1, b, h2, h3⟩ := h
    cases h3
    obtain ⟨u1, r1⟩ := ih1 h1
    obtain ⟨u2, r2⟩ := ih2 h2
    exact ⟨_, .group r1 r2⟩
  | case3 ch joint hc name rest ih =>
    intro out h
    simp only [bind_eq_ok, pure_eq] at h
    obtain ⟨i, h1, b, h2, h3⟩ := h
    cases h3
    obtain ⟨u, r⟩ := ih h2
    obtain ⟨rfl, rfl⟩ := hc
    exact ⟨_, .name (lookupLabel_iff.mp h1) r⟩
  | case4 ch joint hc text rest ih =>
    intro out h
    simp only [bind_eq_ok, pure_eq] at h
    obtain ⟨i, h1, b, h2, h3⟩ := h
    cases h3
    obtain ⟨u, r⟩ := ih h2
    obtain ⟨rfl, rfl⟩ := hc
    exact ⟨_, .index (literalToIndex_iff.mp h1) r⟩
  | case5 => intro out h; cases h
  | case6 ch joint rest hc ih =>
    intro out h
    simp only [bind_eq_ok, pure_eq] at h
    obtain ⟨b, h2, h3⟩ := h
    cases h3
    obtain ⟨u, r⟩ := ih h2
    refine ⟨_, .punct ?_ r⟩
    by_cases hch : ch = '#'
    · right
      cases joint with
      | true => rfl
      | false => exact absurd ⟨rfl, hch⟩ hc
    · exact .inl hch
  | case7 name rest ih =>
    intro out h
    simp only [bind_eq_ok, pure_eq] at h
    obtain ⟨b, h2, h3⟩ := h
    cases h3
    obtain ⟨u, r⟩ := ih h2
    exact ⟨_, .ident r⟩
  | case8 text rest ih =>
    intro out h
    simp only [bind_eq_ok, pure_eq] at h
    obtain ⟨b, h2, h3⟩ := h
    cases h3
    obtain ⟨u, r⟩ := ih h2
    exact ⟨_, .literal r⟩

theorem substituteVars_safe (rule : List ANode) (body : TokenStream) :
    (∃ out, (build rule).substituteVars rule body = .ok out) ∨
      ∃ e, (build rule).substituteVars rule body = .err e := by
  have hb : ∀ {α β : Type} {x : Outcome MacroError α} {f : α → Outcome MacroError β},
      ((∃ a, x = .ok a) ∨ ∃ e, x = .err e) → (∀ a, (∃ b, f a = .ok b) ∨ ∃ e, f a = .err e) →
      (∃ b, (x >>= f) = .ok b) ∨ ∃ e, (x >>= f) = .err e := by
    intro α β x f hx hf
    rcases hx with ⟨a, rfl⟩ | ⟨e, rfl⟩
    · exact hf a
    · exact .inr ⟨e, rfl⟩
  fun_induction substituteVars (build rule) rule body with
  | case1 => exact .inl ⟨_, rfl⟩
  | case2 d inner rest ih1 ih2 => exact hb ih1 fun _ => hb ih2 fun _ => .inl ⟨_, rfl⟩
  | case3 ch joint hc name rest ih => exact hb (lookupLabel_safe _ _) fun _ => hb ih fun _ => .inl ⟨_, rfl⟩
  | case4 ch joint hc text rest ih => exact hb (literalToIndex_safe _ _) fun _ => hb ih fun _ => .inl ⟨_, rfl⟩
  | case5 => exact .inr ⟨_, rfl⟩
  | case6 ch joint rest hc ih => exact hb ih fun _ => .inl ⟨_, rfl⟩
  | case7 name rest ih => exact hb ih fun _ => .inl ⟨_, rfl⟩
  | case8 text rest ih => exact hb ih fun _ => .inl ⟨_, rfl⟩

end SubstMap

theorem Spec.Replaced.node {var : Nat → String} {rule : List ANode} {body out : TokenStream} {used : List Nat}
    (h : Spec.Replaced var rule body out used) :
    ∀ i ∈ used, ∃ node, rule[i]? = some node ∧ node ≠ .epsilon := by
  induction h with
  | nil => simp
  | group _ _ ih1 ih2 =>
    intro i hi
    rcases List.mem_append.mp hi with hi | hi
    · exact ih1 i hi
    · exact ih2 i hi
  | ident _ ih => exact ih
  | literal _ ih => exact ih
  | punct _ _ ih => exact ih
  | name hr _ ih =>
    intro i hi
    rcases List.mem_cons.mp hi with rfl | hi
    · exact ⟨_, hr.1, by simp⟩
    · exact ih i hi
  | index hr _ ih =>
    intro i hi
    rcases List.mem_cons.mp hi with rfl | hi
    · exact hr.2.2
    · exact ih i hi

end Verif
