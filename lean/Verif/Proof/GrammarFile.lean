import Verif.Proof.GrammarSyntax

/-!
# Types of labels, and outcomes of the parser of the grammar language
-/

set_option autoImplicit false

namespace Verif
open Spec

variable {tx : Text}

/-! ## Types of labels -/

theorem typesEqual_iff {a b : Option TokenStream} : typesEqual tx a b = true ↔ SameType tx a b := by
  cases a <;> cases b <;> simp [typesEqual, SameType, cmpTokens]

theorem SameType_refl (a : Option TokenStream) : SameType tx a a := by
  cases a <;> simp [SameType]

theorem SameType_symm {a b : Option TokenStream} (h : SameType tx a b) : SameType tx b a := by
  cases a <;> cases b <;> simp_all [SameType]

theorem SameType_trans {a b c : Option TokenStream} (h : SameType tx a b) (h' : SameType tx b c) :
    SameType tx a c := by
  cases a <;> cases b <;> cases c <;> simp_all [SameType]

theorem add_ok {m m' : LabelTypes} {l : String} {ty : Option TokenStream} :
    m.add tx l ty = .ok m' ↔ (∃ e, m.lookup l = some e ∧ SameType tx e ty ∧ m' = m) ∨
      (m.lookup l = none ∧ m' = (l, ty) :: m) := by
  unfold LabelTypes.add
  cases h : m.lookup l with
  | none => simp [eq_comm]
  | some e =>
    simp only [Option.some.injEq, exists_eq_left', reduceCtorEq, false_and, or_false]
    by_cases he : SameType tx e ty
    · rw [if_pos (typesEqual_iff.mpr he)]
      simp [he, eq_comm]
    · rw [if_neg (fun h => he (typesEqual_iff.mp h))]
      simp only [he, false_and, iff_false]
      cases ty <;> cases e <;> simp [Outcome.unwrap]

/-- The map gives each label the type of its first declaration. -/
def MapOf (m : LabelTypes) (ds : List Declaration) : Prop :=
  ∀ l, m.lookup l = (ds.find? (fun d => d.label == l)).map (·.type)

theorem consistent_append {ds : List Declaration} {d : Declaration} (h : ConsistentTypes tx ds)
    (hd : ∀ d' ∈ ds, d'.label = d.label → SameType tx d'.type d.type) : ConsistentTypes tx (ds ++ [d]) := by
  intro a ha b hb e
  rw [List.mem_append, List.mem_singleton] at ha hb
  rcases ha with ha | rfl <;> rcases hb with hb | rfl
  · exact h a ha b hb e
  · exact hd a ha e
  · exact SameType_symm (hd b hb e.symm)
  · exact SameType_refl _

theorem add_mapOf {m m' : LabelTypes} {ds : List Declaration} {d : Declaration} (hm : MapOf m ds)
    (hc : ConsistentTypes tx ds) (h : m.add tx d.label d.type = .ok m') :
    MapOf m' (ds ++ [d]) ∧ ConsistentTypes tx (ds ++ [d]) := by
  rcases add_ok.mp h with ⟨e, h1, h2, rfl⟩ | ⟨h1, rfl⟩
  · rw [hm] at h1
    obtain ⟨d0, h3, h4⟩ := Option.map_eq_some_iff.mp h1
    have hd0 := List.find?_some h3
    have hmem := List.mem_of_find?_eq_some h3
    simp only [beq_iff_eq] at hd0
    refine ⟨?_, ?_⟩
    · intro l
      rw [hm, List.find?_append]
      cases h5 : ds.find? (fun d => d.label == l) with
      | some x => rfl
      | none =>
        have : d.label ≠ l := by
          intro e
          subst e
          rw [h3] at h5
          cases h5
        simp [this]
    · refine consistent_append hc ?_
      intro d' hd' e'
      have := hc d' hd' d0 hmem (by rw [e', hd0])
      rw [h4] at this
      exact SameType_trans this h2
  · rw [hm] at h1
    simp only [Option.map_eq_none_iff, List.find?_eq_none, beq_iff_eq] at h1
    refine ⟨?_, ?_⟩
    · intro l
      rw [List.lookup_cons, hm, List.find?_append]
      by_cases e : l = d.label
      · subst e
        have : ds.find? (fun d' => d'.label == d.label) = none := by
          rw [List.find?_eq_none]; intro x hx; simpa using h1 x hx
        simp [this]
      · have e' : d.label ≠ l := fun h => e h.symm
        cases h5 : ds.find? (fun d => d.label == l) <;> simp [e', beq_eq_false_iff_ne.mpr e]
    · refine consistent_append hc ?_
      intro d' hd' e'
      exact absurd e' (h1 d' hd')

theorem addAll_sound {ds0 ds : List Declaration} {m m' : LabelTypes} (hm : MapOf m ds0)
    (hc : ConsistentTypes tx ds0) (h : m.addAll tx ds = .ok m') :
    MapOf m' (ds0 ++ ds) ∧ ConsistentTypes tx (ds0 ++ ds) := by
  induction ds generalizing ds0 m with
  | nil => cases h; simpa using ⟨hm, hc⟩
  | cons d ds ih =>
    obtain ⟨m1, h1, h2⟩ := Outcome.bind_eq_ok.mp h
    obtain ⟨hm1, hc1⟩ := add_mapOf hm hc h1
    have := ih hm1 hc1 h2
    simpa using this

theorem addAll_complete {ds0 ds : List Declaration} {m : LabelTypes} (hm : MapOf m ds0)
    (hc : ConsistentTypes tx (ds0 ++ ds)) : ∃ m', m.addAll tx ds = .ok m' := by
  induction ds generalizing ds0 m with
  | nil => exact ⟨m, rfl⟩
  | cons d ds ih =>
    have hc0 : ConsistentTypes tx ds0 := fun a ha b hb =>
      hc a (List.mem_append_left _ ha) b (List.mem_append_left _ hb)
    have h1 : ∃ m1, m.add tx d.label d.type = .ok m1 := by
      cases h : m.lookup d.label with
      | none => exact ⟨_, add_ok.mpr (.inr ⟨h, rfl⟩)⟩
      | some e =>
        refine ⟨m, add_ok.mpr (.inl ⟨e, h, ?_, rfl⟩)⟩
        rw [hm] at h
        obtain ⟨d0, h3, h4⟩ := Option.map_eq_some_iff.mp h
        have hd0 := List.find?_some h3
        simp only [beq_iff_eq] at hd0
        have := hc d0 (List.mem_append_left _ (List.mem_of_find?_eq_some h3)) d (by simp) hd0
        rwa [h4] at this
    obtain ⟨m1, h1⟩ := h1
    obtain ⟨m', h2⟩ := ih (add_mapOf hm hc0 h1).1 (by simpa using hc)
    exact ⟨m', Outcome.bind_eq_ok.mpr ⟨m1, h1, h2⟩⟩

theorem mapOf_nil : MapOf [] [] := fun _ => rfl

theorem consistent_nil : ConsistentTypes tx [] := fun _ h => by cases h

/-! ## No panics -/

/-- Neither a panic nor lack of fuel. -/
def Settled {ε α : Type} (x : Outcome ε α) : Prop := (∃ a, x = .ok a) ∨ ∃ e, x = .err e

section
variable {ε α β : Type}

theorem Settled.ok (a : α) : Settled (.ok a : Outcome ε α) := .inl ⟨a, rfl⟩
theorem Settled.err (e : ε) : Settled (.err e : Outcome ε α) := .inr ⟨e, rfl⟩
theorem Settled.pure (a : α) : Settled (Pure.pure a : Outcome ε α) := .inl ⟨a, rfl⟩

theorem Settled.bind {x : Outcome ε α} {f : α → Outcome ε β} (h : Settled x)
    (hf : ∀ a, x = .ok a → Settled (f a)) : Settled (x >>= f) := by
  rcases h with ⟨a, rfl⟩ | ⟨e, rfl⟩
  · exact hf a rfl
  · exact .err e
end

theorem expectSymbol_settled (s : SymStream) : Settled (expectSymbol s) := by
  unfold expectSymbol
  split
  · exact .err _
  · exact .err _
  · exact .ok _

theorem peekExpectSymbol_settled (s : SymStream) : Settled (peekExpectSymbol s) := by
  unfold peekExpectSymbol
  split
  · exact .err _
  · exact .err _
  · exact .ok _

theorem expectSymbolWith_settled (cmp : SymT → Bool) (s : SymStream) : Settled (expectSymbolWith cmp s) := by
  unfold expectSymbolWith
  refine (expectSymbol_settled s).bind ?_
  rintro ⟨x, s⟩ -
  simp only
  split
  · exact .pure _
  · exact .err _

theorem parseIdentifier_settled (s : SymStream) : Settled (parseIdentifier s) := by
  unfold parseIdentifier
  refine (expectSymbol_settled s).bind ?_
  rintro ⟨x, s⟩ -
  simp only
  split
  · exact .pure _
  · exact .err _

theorem parseTypeLoop_settled (acc : TokenStream) (s : SymStream) : Settled (parseTypeLoop acc s) := by
  induction s generalizing acc with
  | nil => exact .err _
  | cons i s ih =>
    cases i with
    | error e => exact .err _
    | ok x =>
      rw [parseTypeLoop]
      split
      · exact .ok _
      · exact ih _

theorem parseType_settled (s : SymStream) : Settled (parseType s) := by
  unfold parseType
  refine (expectSymbol_settled s).bind ?_
  rintro ⟨x, s⟩ -
  exact parseTypeLoop_settled _ _

theorem parseProductionRef_settled (s : SymStream) : Settled (parseProductionRef s) := by
  unfold parseProductionRef
  refine (expectSymbolWith_settled _ s).bind ?_
  rintro ⟨t, s⟩ -
  refine (expectSymbol_settled s).bind ?_
  rintro ⟨x, s⟩ -
  simp only
  split
  · refine (expectSymbolWith_settled _ s).bind ?_
    rintro ⟨t, s⟩ -
    exact .pure _
  · exact .err _

theorem parseTerminal_settled (s : SymStream) : Settled (parseTerminal tx s) := by
  unfold parseTerminal
  refine (expectSymbol_settled s).bind ?_
  rintro ⟨x, s⟩ -
  simp only
  split
  · exact .pure _
  · unfold parseTerminalIdent
    refine (peekExpectSymbol_settled s).bind ?_
    intro y _
    split
    · split
      · exact .pure _
      · exact .pure _
    · exact .pure _
  · exact .pure _
  · exact .err _

theorem parseNode_settled (s : SymStream) : Settled (parseNode tx s) := by
  unfold parseNode
  refine (peekExpectSymbol_settled s).bind ?_
  intro x _
  split
  · refine (parseProductionRef_settled s).bind ?_
    rintro ⟨n, s⟩ -
    exact .pure _
  · exact parseTerminal_settled s

theorem maybeParseReturnType_settled (s : SymStream) : Settled (maybeParseReturnType s) := by
  unfold maybeParseReturnType
  refine (peekExpectSymbol_settled s).bind ?_
  intro x _
  split
  · refine (parseType_settled _).bind ?_
    rintro ⟨n, s⟩ -
    exact .pure _
  · exact .pure _

theorem parseNode_length {s s' : SymStream} {n : ANode} (h : parseNode tx s = .ok (n, s')) :
    s'.length < s.length := by
  obtain ⟨ss, rfl, hn⟩ := parseNode_sound h
  obtain ⟨x, r, rfl, -⟩ := NodeSyntax_head hn
  simp only [items, List.length_append, List.length_map, List.length_cons]
  omega

theorem parseNodes_settled {fuel : Nat} {rule : List ANode} {s : SymStream} (h : s.length < fuel) :
    Settled (parseNodes tx fuel rule s) := by
  induction fuel generalizing rule s with
  | zero => cases h
  | succ fuel ih =>
    rw [parseNodes]
    refine (peekExpectSymbol_settled s).bind ?_
    intro x _
    split
    · exact .pure _
    · exact .pure _
    · exact .pure _
    · refine (parseNode_settled s).bind ?_
      rintro ⟨n, s1⟩ h1
      have := parseNode_length h1
      exact ih (by omega)

theorem parseRule_settled (name : String) (ty : Option TokenStream) (s : SymStream) :
    Settled (parseRule tx name ty s) := by
  unfold parseRule
  refine (parseNode_settled s).bind ?_
  rintro ⟨n, s⟩ -
  refine (parseNodes_settled (by simp)).bind ?_
  rintro ⟨rule, block, s⟩ -
  simp only
  split
  · exact .err _
  · exact .pure _

theorem RuleSyntax_ne_nil {ss : List Symbol} {a : Alternative} (h : RuleSyntax tx ss a) : ss ≠ [] := by
  obtain ⟨ss', bs, rfl, h1, h2, -⟩ := RuleSyntax_parts h
  generalize a.1 = ns at h1 h2
  cases h1 with
  | nil => exact absurd rfl h2
  | cons hn _ =>
    obtain ⟨x, r, rfl, -⟩ := NodeSyntax_head hn
    simp

theorem parseRule_length {name : String} {ty : Option TokenStream} {s s' : SymStream} {r : ARule}
    (h : parseRule tx name ty s = .ok (r, s')) : s'.length < s.length := by
  obtain ⟨ss, a, rfl, ha, -⟩ := parseRule_sound h
  have := List.length_pos_iff.mpr (RuleSyntax_ne_nil ha)
  simp only [items, List.length_append, List.length_map]
  omega

theorem parseAlternatives_settled {name : String} {ty : Option TokenStream} {fuel : Nat}
    {rules : List ARule} {s : SymStream} (h : s.length < fuel) :
    Settled (parseAlternatives tx name ty fuel rules s) := by
  induction fuel generalizing rules s with
  | zero => cases h
  | succ fuel ih =>
    rw [parseAlternatives]
    refine (expectSymbol_settled s).bind ?_
    rintro ⟨x, s1⟩ h1
    rw [expectSymbol_ok] at h1
    subst h1
    simp only
    split
    · refine (parseRule_settled name ty s1).bind ?_
      rintro ⟨r, s2⟩ h2
      have := parseRule_length h2
      simp only [List.length_cons] at h ⊢
      exact ih (by omega)
    · exact .pure _
    · exact .err _

theorem add_settled (m : LabelTypes) (l : String) (ty : Option TokenStream) : Settled (m.add tx l ty) := by
  unfold LabelTypes.add
  split
  · rename_i e _
    split
    · exact .ok _
    · rename_i h
      cases ty with
      | some t => exact .err _
      | none =>
        cases e with
        | some t => exact .err _
        | none => simp [typesEqual] at h
  · exact .ok _

theorem parseDeclaration_settled (m : LabelTypes) (s : SymStream) : Settled (parseDeclaration tx m s) := by
  unfold parseDeclaration
  refine (parseProductionRef_settled s).bind ?_
  rintro ⟨n, s⟩ -
  refine (maybeParseReturnType_settled s).bind ?_
  rintro ⟨ty, s⟩ -
  refine (add_settled m n ty).bind ?_
  intro m _
  refine (expectSymbolWith_settled _ s).bind ?_
  rintro ⟨t, s⟩ -
  refine (parseRule_settled n ty s).bind ?_
  rintro ⟨r, s⟩ -
  refine (parseAlternatives_settled (by simp)).bind ?_
  rintro ⟨rs, s⟩ -
  exact .pure _

theorem parseDeclarations_settled {fuel : Nat} {rules : List ARule} {m : LabelTypes} {s : SymStream}
    (h : s.length < fuel) : Settled (parseDeclarations tx fuel rules m s) := by
  induction fuel generalizing rules m s with
  | zero => cases h
  | succ fuel ih =>
    rw [parseDeclarations.eq_def]
    simp only
    split
    · exact .pure _
    · refine (parseDeclaration_settled m _).bind ?_
      rintro ⟨rs, m1, s1⟩ h1
      obtain ⟨ss, d, e, hd, -, -⟩ := parseDeclaration_sound h1
      have := List.length_pos_iff.mpr (DeclarationSyntax_length hd)
      have e' := congrArg List.length e
      simp only [items, List.length_append, List.length_map, List.length_cons] at e'
      simp only [List.length_cons] at h ⊢
      exact ih (by omega)

theorem parseOptionRemainder_settled {α : Type} {value : SymStream → Outcome MacroError (α × SymStream)}
    (hv : ∀ s, Settled (value s)) (s : SymStream) : Settled (parseOptionRemainder value s) := by
  unfold parseOptionRemainder
  refine (expectSymbolWith_settled _ s).bind ?_
  rintro ⟨t, s⟩ -
  refine (hv s).bind ?_
  rintro ⟨v, s⟩ -
  refine (expectSymbolWith_settled _ s).bind ?_
  rintro ⟨t, s⟩ -
  exact .pure _

theorem parseName_settled (s : SymStream) : Settled (parseName s) := by
  unfold parseName parseOption
  refine (expectSymbolWith_settled _ s).bind ?_
  rintro ⟨t, s⟩ -
  exact parseOptionRemainder_settled parseIdentifier_settled s

theorem parseTerminalType_settled (s : SymStream) : Settled (parseTerminalType s) := by
  unfold parseTerminalType
  refine (expectSymbol_settled s).bind ?_
  rintro ⟨x, s⟩ -
  simp only
  split
  · refine (parseOptionRemainder_settled parseType_settled s).bind ?_
    rintro ⟨t, s⟩ -
    exact .pure _
  · split
    · refine (parseOptionRemainder_settled parseType_settled s).bind ?_
      rintro ⟨t, s⟩ -
      exact .pure _
    · exact .err _

theorem maybeParseErrorType_settled (s : SymStream) : Settled (maybeParseErrorType s) := by
  unfold maybeParseErrorType
  refine (peekExpectSymbol_settled s).bind ?_
  intro x _
  split
  · refine (parseOptionRemainder_settled parseType_settled _).bind ?_
    rintro ⟨t, s⟩ -
    exact .pure _
  · exact .pure _

end Verif
