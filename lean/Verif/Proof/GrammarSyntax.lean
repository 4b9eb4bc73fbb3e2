import Verif.Spec.GrammarSyntax
import Verif.Model.ParseGrammar
import Verif.Proof.Symbols

/-!
# The parser of the grammar language follows its syntax
-/

set_option autoImplicit false

namespace Verif
open Spec

variable {tx : Text}

/-- Symbols as items of a stream. -/
abbrev items (ss : List Symbol) : SymStream := ss.map .ok

theorem expectSymbol_ok {s s' : SymStream} {x : Symbol} :
    expectSymbol s = .ok (x, s') ↔ s = .ok x :: s' := by
  unfold expectSymbol
  split <;> simp

theorem peekExpectSymbol_ok {s : SymStream} {x : Symbol} :
    peekExpectSymbol s = .ok x ↔ ∃ r, s = .ok x :: r := by
  unfold peekExpectSymbol
  split <;> simp

theorem isOp_iff {k : SymT} {o : Op} : k.isOp o = true ↔ k = .op o := by simp [SymT.isOp]

theorem isIdent_iff {k : SymT} {n : String} : k.isIdent n = true ↔ k = .ident n := by simp [SymT.isIdent]

theorem expectSymbolWith_ok {cmp : SymT → Bool} {s s' : SymStream} {t : TokenStream} :
    expectSymbolWith cmp s = .ok (t, s') ↔ ∃ x, s = .ok x :: s' ∧ cmp x.sym = true ∧ t = x.tokens := by
  unfold expectSymbolWith
  rw [Outcome.bind_eq_ok]
  constructor
  · rintro ⟨⟨x, s1⟩, h, h1⟩
    rw [expectSymbol_ok] at h
    simp only at h1
    split at h1
    · rename_i hc
      cases h1
      exact ⟨x, h, hc, rfl⟩
    · cases h1
  · rintro ⟨x, rfl, hc, rfl⟩
    refine ⟨(x, s'), rfl, ?_⟩
    simp [hc]

theorem parseIdentifier_ok {s s' : SymStream} {n : String} :
    parseIdentifier s = .ok (n, s') ↔ ∃ x, s = .ok x :: s' ∧ Is (.ident n) x := by
  unfold parseIdentifier
  rw [Outcome.bind_eq_ok]
  constructor
  · rintro ⟨⟨x, s1⟩, h, h1⟩
    rw [expectSymbol_ok] at h
    simp only at h1
    split at h1
    · rename_i hc
      cases h1
      exact ⟨x, h, hc⟩
    · cases h1
  · rintro ⟨x, rfl, hc⟩
    refine ⟨(x, s'), rfl, ?_⟩
    simp only [Is] at hc
    simp [hc]

theorem TokenStream.append_nil (a : TokenStream) : a.append .nil = a := by
  induction a with
  | nil => rfl
  | group d i r _ ih => simp only [TokenStream.append, ih]
  | ident n r ih => simp only [TokenStream.append, ih]
  | literal n r ih => simp only [TokenStream.append, ih]
  | punct n j r ih => simp only [TokenStream.append, ih]

theorem TokenStream.append_assoc (a b c : TokenStream) :
    (a.append b).append c = a.append (b.append c) := by
  induction a with
  | nil => rfl
  | group d i r _ ih => simp only [TokenStream.append, ih]
  | ident n r ih => simp only [TokenStream.append, ih]
  | literal n r ih => simp only [TokenStream.append, ih]
  | punct n j r ih => simp only [TokenStream.append, ih]

/-- What may follow a type. -/
def AtTypeEnd (s : SymStream) : Prop :=
  ∃ x r, s = .ok x :: r ∧ (Is (.op .arrow) x ∨ Is (.op .semicolon) x)

theorem parseTypeLoop_ok {s s' : SymStream} {acc ty : TokenStream} :
    parseTypeLoop acc s = .ok (ty, s') ↔ ∃ ss, s = items ss ++ s' ∧ AtTypeEnd s' ∧
      ty = acc.append (tokensOf ss) ∧ ∀ x ∈ ss, ¬ Is (.op .arrow) x ∧ ¬ Is (.op .semicolon) x := by
  induction s generalizing acc with
  | nil =>
    simp only [parseTypeLoop]
    constructor
    · intro h; cases h
    · rintro ⟨ss, h, ⟨x, r, rfl, -⟩, -⟩
      simp at h
  | cons i s ih =>
    cases i with
    | error e =>
      simp only [parseTypeLoop]
      constructor
      · intro h; cases h
      · rintro ⟨ss, h, ⟨x, r, rfl, -⟩, -⟩
        cases ss <;> simp at h
    | ok x =>
      rw [parseTypeLoop]
      by_cases hx : Is (.op .arrow) x ∨ Is (.op .semicolon) x
      · have : (x.sym.isOp .arrow || x.sym.isOp .semicolon) = true := by
          simpa [isOp_iff, Is] using hx
        rw [if_pos this]
        constructor
        · intro h
          cases h
          exact ⟨[], rfl, ⟨x, s, rfl, hx⟩, (TokenStream.append_nil _).symm, by simp⟩
        · rintro ⟨ss, h, hs', rfl, hn⟩
          cases ss with
          | nil =>
            simp only [items, List.map_nil, List.nil_append] at h
            rw [h]
            simp [tokensOf, TokenStream.append_nil]
          | cons y ss =>
            simp only [items, List.map_cons, List.cons_append, List.cons.injEq, Except.ok.injEq] at h
            obtain ⟨rfl, -⟩ := h
            have := hn x (by simp)
            rcases hx with hx | hx
            · exact absurd hx this.1
            · exact absurd hx this.2
      · have : ¬ (x.sym.isOp .arrow || x.sym.isOp .semicolon) = true := by
          simpa [isOp_iff, Is] using hx
        rw [if_neg this, ih]
        constructor
        · rintro ⟨ss, rfl, hs', rfl, hn⟩
          refine ⟨x :: ss, rfl, hs', ?_, ?_⟩
          · simp only [tokensOf, TokenStream.merge, TokenStream.append_assoc]
          · intro y hy
            rcases List.mem_cons.mp hy with rfl | hy
            · exact not_or.mp hx
            · exact hn y hy
        · rintro ⟨ss, h, hs', rfl, hn⟩
          cases ss with
          | nil =>
            simp only [items, List.map_nil, List.nil_append] at h
            obtain ⟨y, r, rfl, hy⟩ := hs'
            cases h
            exact absurd hy hx
          | cons y ss =>
            simp only [items, List.map_cons, List.cons_append, List.cons.injEq, Except.ok.injEq] at h
            obtain ⟨rfl, rfl⟩ := h
            refine ⟨ss, rfl, hs', ?_, fun z hz => hn z (by simp [hz])⟩
            simp only [tokensOf, TokenStream.merge, TokenStream.append_assoc]

theorem parseType_ok {s s' : SymStream} {ty : TokenStream} :
    parseType s = .ok (ty, s') ↔ ∃ ss, s = items ss ++ s' ∧ AtTypeEnd s' ∧ TypeSyntax ss ty := by
  unfold parseType
  rw [Outcome.bind_eq_ok]
  constructor
  · rintro ⟨⟨x, s1⟩, h, h1⟩
    rw [expectSymbol_ok] at h
    subst h
    obtain ⟨ss, rfl, hs', rfl, hn⟩ := parseTypeLoop_ok.mp h1
    exact ⟨x :: ss, rfl, hs', .mk hn⟩
  · rintro ⟨ss, rfl, hs', ht⟩
    cases ht with
    | @mk a ss hn => exact ⟨(a, items ss ++ s'), rfl, parseTypeLoop_ok.mpr ⟨ss, rfl, hs', rfl, hn⟩⟩

theorem parseProductionRef_ok {s s' : SymStream} {n : String} :
    parseProductionRef s = .ok (n, s') ↔ ∃ a b c, s = .ok a :: .ok b :: .ok c :: s' ∧
      Is (.op .beginProd) a ∧ Is (.ident n) b ∧ Is (.op .endProd) c := by
  unfold parseProductionRef
  rw [Outcome.bind_eq_ok]
  constructor
  · rintro ⟨⟨t, s1⟩, h, h1⟩
    obtain ⟨a, rfl, ha, -⟩ := expectSymbolWith_ok.mp h
    obtain ⟨⟨b, s2⟩, g, h2⟩ := Outcome.bind_eq_ok.mp h1
    clear h1
    rw [expectSymbol_ok] at g
    simp only at g h2
    subst g
    split at h2
    · rename_i hb
      obtain ⟨⟨t, s3⟩, g, h3⟩ := Outcome.bind_eq_ok.mp h2
      obtain ⟨c, rfl, hc, -⟩ := expectSymbolWith_ok.mp g
      cases h3
      exact ⟨a, b, c, rfl, isOp_iff.mp ha, hb, isOp_iff.mp hc⟩
    · cases h2
  · rintro ⟨a, b, c, rfl, ha, hb, hc⟩
    refine ⟨(a.tokens, .ok b :: .ok c :: s'), expectSymbolWith_ok.mpr ⟨a, rfl, isOp_iff.mpr ha, rfl⟩, ?_⟩
    refine Outcome.bind_eq_ok.mpr ⟨(b, .ok c :: s'), rfl, ?_⟩
    simp only [Is] at hb
    simp only [hb]
    exact Outcome.bind_eq_ok.mpr ⟨(c.tokens, s'), expectSymbolWith_ok.mpr ⟨c, rfl, isOp_iff.mpr hc, rfl⟩, rfl⟩

theorem isWildcardTokens_iff {t : TokenStream} : isWildcardTokens t = true ↔ Wildcard t := by
  unfold Wildcard
  cases t with
  | nil => simp [isWildcardTokens]
  | group d i r => simp [isWildcardTokens]
  | ident n r => simp [isWildcardTokens]
  | literal n r => simp [isWildcardTokens]
  | punct c j r =>
    unfold isWildcardTokens
    by_cases h1 : c = '.' ∧ j = true
    · obtain ⟨rfl, rfl⟩ := h1
      simp only [beq_self_eq_true, Bool.and_true, if_true]
      split
      · simp
      · rename_i h
        constructor
        · intro h'; cases h'
        · rintro (h' | h')
          · cases h'
            exact absurd rfl (h _ _)
          · cases h'
    · simp only
      rw [if_neg (by simpa using h1)]
      by_cases h2 : c = '_' ∧ j = false
      · obtain ⟨rfl, rfl⟩ := h2
        simp
      · rw [if_neg (by simpa using h2)]
        constructor
        · intro h; cases h
        · rintro (h' | h')
          · cases h'; exact absurd ⟨rfl, rfl⟩ h1
          · cases h'; exact absurd ⟨rfl, rfl⟩ h2

/-- The next item is a symbol, and not a parenthesised group. -/
def NotParen (s : SymStream) : Prop := ∃ x r, s = .ok x :: r ∧ ∀ inner, ¬ Is (.paren inner) x

theorem parseTerminal_sound {s s' : SymStream} {n : ANode} (h : parseTerminal tx s = .ok (n, s')) :
    ∃ ss, s = items ss ++ s' ∧ NodeSyntax tx ss n := by
  unfold parseTerminal at h
  obtain ⟨⟨x, s1⟩, h1, h2⟩ := Outcome.bind_eq_ok.mp h
  clear h
  have h := h2
  clear h2
  rw [expectSymbol_ok] at h1
  simp only at h
  subst h1
  split at h
  · rename_i hx; cases h; exact ⟨[x], rfl, .literal hx⟩
  · rename_i hx
    unfold parseTerminalIdent at h
    obtain ⟨y, h1, h⟩ := Outcome.bind_eq_ok.mp h
    obtain ⟨r, rfl⟩ := peekExpectSymbol_ok.mp h1
    split at h
    · rename_i hy
      split at h
      · rename_i hw
        cases h
        exact ⟨[x, y], rfl, .wildcard hx hy (isWildcardTokens_iff.mp hw)⟩
      · rename_i hw
        cases h
        exact ⟨[x, y], rfl, .pattern hx hy (fun hn => hw (isWildcardTokens_iff.mpr hn))⟩
    · cases h; exact ⟨[x], rfl, .plain hx⟩
  · rename_i hx; cases h; exact ⟨[x], rfl, .epsilon hx⟩
  · cases h

theorem parseNode_sound {s s' : SymStream} {n : ANode} (h : parseNode tx s = .ok (n, s')) :
    ∃ ss, s = items ss ++ s' ∧ NodeSyntax tx ss n := by
  unfold parseNode at h
  obtain ⟨x, h1, h⟩ := Outcome.bind_eq_ok.mp h
  split at h
  · obtain ⟨⟨name, s1⟩, h2, h⟩ := Outcome.bind_eq_ok.mp h
    cases h
    obtain ⟨a, b, c, rfl, ha, hb, hc⟩ := parseProductionRef_ok.mp h2
    exact ⟨[a, b, c], rfl, .production ha hb hc⟩
  · exact parseTerminal_sound h

theorem parseNode_complete {ss : List Symbol} {n : ANode} (h : NodeSyntax tx ss n) {s' : SymStream}
    (hs : NotParen s') : parseNode tx (items ss ++ s') = .ok (n, s') := by
  cases h with
  | @production a b c name ha hb hc =>
    have h1 : parseProductionRef (.ok a :: .ok b :: .ok c :: s') = .ok (name, s') :=
      parseProductionRef_ok.mpr ⟨a, b, c, rfl, ha, hb, hc⟩
    simp only [Is] at ha
    simp only [parseNode, items, List.map_cons, List.cons_append, List.map_nil, List.nil_append, peekExpectSymbol,
      Outcome.ok_bind, ha, h1]
    rfl
  | @epsilon a ha =>
    simp only [Is] at ha
    simp [parseNode, items, peekExpectSymbol, ha, parseTerminal, expectSymbol]
  | @literal a text ha =>
    simp only [Is] at ha
    simp [parseNode, items, peekExpectSymbol, ha, parseTerminal, expectSymbol]
  | @plain a name ha =>
    simp only [Is] at ha
    obtain ⟨x, r, rfl, hx⟩ := hs
    have : parseTerminalIdent tx name (.ok x :: r) = .ok (.symbol ⟨name, .none⟩, .ok x :: r) := by
      simp only [parseTerminalIdent, peekExpectSymbol, Outcome.ok_bind]
      split
      · rename_i inner hi; exact absurd hi (hx inner)
      · rfl
    simp [parseNode, items, peekExpectSymbol, ha, parseTerminal, expectSymbol, this]
  | @wildcard a b name inner ha hb hw =>
    simp only [Is] at ha hb
    simp [parseNode, items, peekExpectSymbol, ha, hb, parseTerminal, expectSymbol, parseTerminalIdent,
      isWildcardTokens_iff.mpr hw]
  | @pattern a b name inner ha hb hw =>
    simp only [Is] at ha hb
    have : isWildcardTokens inner = false := by
      rw [Bool.eq_false_iff]; exact fun h => hw (isWildcardTokens_iff.mp h)
    simp [parseNode, items, peekExpectSymbol, ha, hb, parseTerminal, expectSymbol, parseTerminalIdent, this]

/-- What a node begins with: neither a group nor the end of a rule. -/
theorem NodeSyntax_head {ss : List Symbol} {n : ANode} (h : NodeSyntax tx ss n) :
    ∃ x r, ss = x :: r ∧ (∀ inner, ¬ Is (.paren inner) x) ∧ (∀ d inner, ¬ Is (.group d inner) x) ∧
      ¬ Is (.op .semicolon) x ∧ ¬ Is (.op .pipe) x := by
  cases h <;> rename_i ha _ <;> first
    | (refine ⟨_, _, rfl, ?_⟩; simp only [Is] at *; simp [*])
    | skip

/-! ## Rules -/

/-- What may follow a rule. -/
def AtRuleEnd (s : SymStream) : Prop :=
  ∃ x r, s = .ok x :: r ∧ (Is (.op .semicolon) x ∨ Is (.op .pipe) x)

/-- A rule without constructor, or its constructor. -/
def BlockSyntax (bs : List Symbol) (block : Option (Delim × TokenStream)) : Prop :=
  (bs = [] ∧ block = none) ∨ ∃ b d inner, bs = [b] ∧ Is (.group d inner) b ∧ block = some (d, inner)

theorem parseNodes_sound {fuel : Nat} {rule rule' : List ANode} {block : Option (Delim × TokenStream)}
    {s s' : SymStream} (h : parseNodes tx fuel rule s = .ok (rule', block, s')) :
    ∃ ss ns bs, rule' = rule ++ ns ∧ s = items ss ++ (items bs ++ s') ∧ NodesSyntax tx ss ns ∧
      BlockSyntax bs block := by
  induction fuel generalizing rule s with
  | zero => cases h
  | succ fuel ih =>
    rw [parseNodes] at h
    obtain ⟨x, h1, h2⟩ := Outcome.bind_eq_ok.mp h
    clear h
    obtain ⟨r, rfl⟩ := peekExpectSymbol_ok.mp h1
    split at h2
    · cases h2; exact ⟨[], [], [], by simp, rfl, .nil, .inl ⟨rfl, rfl⟩⟩
    · cases h2; exact ⟨[], [], [], by simp, rfl, .nil, .inl ⟨rfl, rfl⟩⟩
    · rename_i d inner hx
      cases h2
      exact ⟨[], [], [x], by simp, rfl, .nil, .inr ⟨x, d, inner, rfl, hx, rfl⟩⟩
    · obtain ⟨⟨n, s1⟩, h3, h4⟩ := Outcome.bind_eq_ok.mp h2
      obtain ⟨ss1, e1, hn⟩ := parseNode_sound h3
      obtain ⟨ss, ns, bs, rfl, rfl, hs, hb⟩ := ih h4
      refine ⟨ss1 ++ ss, n :: ns, bs, by simp, ?_, .cons hn hs, hb⟩
      rw [e1]
      simp [items]

theorem NodesSyntax_length {ss : List Symbol} {ns : List ANode} (h : NodesSyntax tx ss ns) :
    ns.length ≤ ss.length := by
  induction h with
  | nil => simp
  | cons hn _ ih =>
    obtain ⟨x, r, rfl, -⟩ := NodeSyntax_head hn
    simp only [List.length_cons, List.length_append]
    omega

theorem NodesSyntax_notParen {ss : List Symbol} {ns : List ANode} (h : NodesSyntax tx ss ns) {s' : SymStream}
    (hs : NotParen s') : NotParen (items ss ++ s') := by
  cases h with
  | nil => exact hs
  | cons hn _ =>
    obtain ⟨x, r, rfl, hx, -⟩ := NodeSyntax_head hn
    exact ⟨x, _, rfl, hx⟩

theorem BlockSyntax_notParen {bs : List Symbol} {block : Option (Delim × TokenStream)}
    (h : BlockSyntax bs block) {s' : SymStream} (hs : AtRuleEnd s') : NotParen (items bs ++ s') := by
  rcases h with ⟨rfl, rfl⟩ | ⟨b, d, inner, rfl, hb, rfl⟩
  · obtain ⟨x, r, rfl, hx⟩ := hs
    refine ⟨x, r, rfl, ?_⟩
    intro inner hi
    simp only [Is] at hi hx
    rw [hi] at hx
    simp at hx
  · refine ⟨b, s', rfl, ?_⟩
    intro inner hi
    simp only [Is] at hi hb
    rw [hi] at hb
    cases hb

theorem parseNodes_complete {ss bs : List Symbol} {ns : List ANode} {block : Option (Delim × TokenStream)}
    (h : NodesSyntax tx ss ns) (hb : BlockSyntax bs block) {s' : SymStream} (hs : AtRuleEnd s') {fuel : Nat}
    (hf : ns.length < fuel) (rule : List ANode) :
    parseNodes tx fuel rule (items ss ++ (items bs ++ s')) = .ok (rule ++ ns, block, s') := by
  induction h generalizing fuel rule with
  | nil =>
    cases fuel with
    | zero => cases hf
    | succ fuel =>
      rw [parseNodes]
      rcases hb with ⟨rfl, rfl⟩ | ⟨b, d, inner, rfl, hb, rfl⟩
      · obtain ⟨x, r, rfl, hx⟩ := hs
        simp only [Is] at hx
        rcases hx with hx | hx <;> simp [items, peekExpectSymbol, hx]
      · simp only [Is] at hb
        simp [items, peekExpectSymbol, hb]
  | @cons s ss n ns hn hr ih =>
    cases fuel with
    | zero => cases hf
    | succ fuel =>
      obtain ⟨x, r, e, hx1, hx2, hx3, hx4⟩ := NodeSyntax_head hn
      have hp : NotParen (items ss ++ (items bs ++ s')) :=
        NodesSyntax_notParen hr (BlockSyntax_notParen hb hs)
      have h1 := parseNode_complete hn hp
      have h2 := ih (fuel := fuel) (by simpa using hf) (rule ++ [n])
      have e' : items (s ++ ss) ++ (items bs ++ s') = .ok x :: (items r ++ (items ss ++ (items bs ++ s'))) := by
        rw [e]; simp [items]
      have e'' : items s ++ (items ss ++ (items bs ++ s')) =
          .ok x :: (items r ++ (items ss ++ (items bs ++ s'))) := by
        rw [e]; simp [items]
      rw [parseNodes, e', ← e'', h1]
      rw [e'']
      simp only [peekExpectSymbol, Outcome.ok_bind]
      split
      · rename_i h; exact absurd h hx3
      · rename_i h; exact absurd h hx4
      · rename_i h; exact absurd h (hx2 _ _)
      · rw [h2]; simp

theorem alone_iff {ns : List ANode} (hne : ns ≠ []) :
    (decide (ns.length > 1) && ns.any ANode.isEpsilon) = false ↔ Alone ns := by
  have hmem : ns.any ANode.isEpsilon = true ↔ .epsilon ∈ ns := by
    rw [List.any_eq_true]
    constructor
    · rintro ⟨n, hn, h⟩
      cases n <;> simp [ANode.isEpsilon] at h
      exact hn
    · intro h; exact ⟨_, h, rfl⟩
  unfold Alone
  rw [← hmem]
  constructor
  · intro h hm
    simp only [hm, Bool.and_true, decide_eq_false_iff_not] at h
    match ns, hne with
    | [n], _ =>
      rw [hmem] at hm
      simp only [List.mem_singleton] at hm
      rw [← hm]
    | _ :: _ :: _, _ => simp at h
  · intro h
    by_cases hm : ns.any ANode.isEpsilon = true
    · rw [h hm]; rfl
    · simp [hm]

theorem parseRule_sound {name : String} {ty : Option TokenStream} {s s' : SymStream} {r : ARule}
    (h : parseRule tx name ty s = .ok (r, s')) :
    ∃ ss a, s = items ss ++ s' ∧ RuleSyntax tx ss a ∧ r = ⟨name, ty, a.1, a.2⟩ := by
  unfold parseRule at h
  obtain ⟨⟨n, s1⟩, h1, h2⟩ := Outcome.bind_eq_ok.mp h
  obtain ⟨ss1, rfl, hn⟩ := parseNode_sound h1
  obtain ⟨⟨rule, block, s2⟩, h3, h4⟩ := Outcome.bind_eq_ok.mp h2
  obtain ⟨ss, ns, bs, rfl, e, hs, hb⟩ := parseNodes_sound h3
  subst e
  simp only at h4
  split at h4
  · cases h4
  · rename_i hc
    have hal : Alone ([n] ++ ns) := (alone_iff (by simp)).mp (by simpa using hc)
    cases h4
    have hall : NodesSyntax tx (ss1 ++ ss) ([n] ++ ns) := .cons hn hs
    rcases hb with ⟨rfl, rfl⟩ | ⟨b, d, inner, rfl, hb, rfl⟩
    · exact ⟨ss1 ++ ss, ([n] ++ ns, none), by simp [items], .bare hall (by simp) hal, rfl⟩
    · exact ⟨ss1 ++ ss ++ [b], ([n] ++ ns, some (d, inner)), by simp [items],
        .block hall (by simp) hal hb, rfl⟩

theorem RuleSyntax_parts {ss : List Symbol} {a : Alternative} (h : RuleSyntax tx ss a) :
    ∃ ss' bs, ss = ss' ++ bs ∧ NodesSyntax tx ss' a.1 ∧ a.1 ≠ [] ∧ Alone a.1 ∧ BlockSyntax bs a.2 := by
  cases h with
  | bare h1 h2 h3 => exact ⟨ss, [], by simp, h1, h2, h3, .inl ⟨rfl, rfl⟩⟩
  | @block ss' b ns d inner h1 h2 h3 h4 =>
    exact ⟨ss', [b], rfl, h1, h2, h3, .inr ⟨b, d, inner, rfl, h4, rfl⟩⟩

theorem parseRule_complete {ss : List Symbol} {a : Alternative} (h : RuleSyntax tx ss a) {s' : SymStream}
    (hs : AtRuleEnd s') (name : String) (ty : Option TokenStream) :
    parseRule tx name ty (items ss ++ s') = .ok (⟨name, ty, a.1, a.2⟩, s') := by
  obtain ⟨ss', bs, rfl, h1, h2, h3, h4⟩ := RuleSyntax_parts h
  obtain ⟨ns, block⟩ := a
  simp only at *
  cases h1 with
  | nil => exact absurd rfl h2
  | @cons s ss n ns hn hr =>
    have hp : NotParen (items ss ++ (items bs ++ s')) :=
      NodesSyntax_notParen hr (BlockSyntax_notParen h4 hs)
    have e : items (s ++ ss ++ bs) ++ s' = items s ++ (items ss ++ (items bs ++ s')) := by simp [items]
    unfold parseRule
    rw [e, parseNode_complete hn hp]
    simp only [Outcome.ok_bind]
    have hl := NodesSyntax_length hr
    rw [parseNodes_complete hr h4 hs (by simp only [items, List.length_append, List.length_map]; omega) [n]]
    simp only [Outcome.ok_bind]
    have := (alone_iff (ns := [n] ++ ns) (by simp)).mpr h3
    rw [if_neg (by simpa using this)]
    rfl

/-! ## Alternatives and declarations -/

/-- `("|" rule)* ";"`. -/
inductive TailSyntax (tx : Text) : List Symbol → List Alternative → Prop
  | stop {x : Symbol} : Is (.op .semicolon) x → TailSyntax tx [x] []
  | more {p : Symbol} {ss rest : List Symbol} {a : Alternative} {as : List Alternative} : Is (.op .pipe) p →
      RuleSyntax tx ss a → TailSyntax tx rest as → TailSyntax tx (p :: (ss ++ rest)) (a :: as)

theorem TailSyntax.rules {rest : List Symbol} {as : List Alternative} (h : TailSyntax tx rest as) :
    ∀ {ss : List Symbol} {a : Alternative}, RuleSyntax tx ss a → ∃ rs semi, ss ++ rest = rs ++ [semi] ∧
      RulesSyntax tx rs (a :: as) ∧ Is (.op .semicolon) semi := by
  induction h with
  | @stop x hx => intro ss a ha; exact ⟨ss, x, rfl, .one ha, hx⟩
  | @more p ss' rest a' as hp hr _ ih =>
    intro ss a ha
    obtain ⟨rs, semi, e, h1, h2⟩ := ih hr
    exact ⟨ss ++ p :: rs, semi, by rw [e]; simp, .cons ha hp h1, h2⟩

theorem RulesSyntax_tail {rs : List Symbol} {as : List Alternative} (h : RulesSyntax tx rs as)
    {semi : Symbol} (hs : Is (.op .semicolon) semi) : ∃ ss rest a as', as = a :: as' ∧
      rs ++ [semi] = ss ++ rest ∧ RuleSyntax tx ss a ∧ TailSyntax tx rest as' := by
  induction h with
  | @one ss a ha => exact ⟨ss, [semi], a, [], rfl, rfl, ha, .stop hs⟩
  | @cons ss rest a as p ha hp _ ih =>
    obtain ⟨ss', rest', a', as', rfl, e, h1, h2⟩ := ih
    refine ⟨ss, p :: (ss' ++ rest'), a, a' :: as', rfl, ?_, ha, .more hp h1 h2⟩
    rw [← e]; simp

theorem TailSyntax.atRuleEnd {ss : List Symbol} {as : List Alternative} (h : TailSyntax tx ss as)
    (s' : SymStream) : AtRuleEnd (items ss ++ s') := by
  cases h with
  | stop hx => exact ⟨_, _, rfl, .inl hx⟩
  | more hp _ _ => exact ⟨_, _, rfl, .inr hp⟩

theorem TailSyntax.length {ss : List Symbol} {as : List Alternative} (h : TailSyntax tx ss as) :
    as.length < ss.length := by
  induction h with
  | stop _ => simp
  | more _ _ _ ih => simp only [List.length_cons, List.length_append]; omega

theorem parseAlternatives_sound {name : String} {ty : Option TokenStream} {fuel : Nat}
    {rules rules' : List ARule} {s s' : SymStream}
    (h : parseAlternatives tx name ty fuel rules s = .ok (rules', s')) :
    ∃ ss as, s = items ss ++ s' ∧ TailSyntax tx ss as ∧
      rules' = rules ++ as.map fun a => ⟨name, ty, a.1, a.2⟩ := by
  induction fuel generalizing rules s with
  | zero => cases h
  | succ fuel ih =>
    rw [parseAlternatives] at h
    obtain ⟨⟨x, s1⟩, h1, h2⟩ := Outcome.bind_eq_ok.mp h
    clear h
    rw [expectSymbol_ok] at h1
    subst h1
    simp only at h2
    split at h2
    · rename_i hx
      obtain ⟨⟨r, s2⟩, h3, h4⟩ := Outcome.bind_eq_ok.mp h2
      obtain ⟨ss, a, rfl, ha, rfl⟩ := parseRule_sound h3
      obtain ⟨rest, as, e, ht, rfl⟩ := ih h4
      simp only at e
      subst e
      exact ⟨x :: (ss ++ rest), a :: as, by simp [items], .more hx ha ht, by simp⟩
    · rename_i hx
      cases h2
      exact ⟨[x], [], rfl, .stop hx, by simp⟩
    · cases h2

theorem parseAlternatives_complete {ss : List Symbol} {as : List Alternative} (h : TailSyntax tx ss as)
    {fuel : Nat} (hf : as.length < fuel) (name : String) (ty : Option TokenStream) (rules : List ARule)
    (s' : SymStream) : parseAlternatives tx name ty fuel rules (items ss ++ s') =
      .ok (rules ++ as.map fun a => ⟨name, ty, a.1, a.2⟩, s') := by
  induction h generalizing fuel rules with
  | @stop x hx =>
    cases fuel with
    | zero => cases hf
    | succ fuel =>
      simp only [Is] at hx
      simp [parseAlternatives, items, expectSymbol, hx]
  | @more p ss rest a as hp hr ht ih =>
    cases fuel with
    | zero => cases hf
    | succ fuel =>
      simp only [Is] at hp
      have e : items (p :: (ss ++ rest)) ++ s' = .ok p :: (items ss ++ (items rest ++ s')) := by simp [items]
      rw [parseAlternatives, e]
      simp only [expectSymbol, Outcome.ok_bind, hp]
      rw [parseRule_complete hr (ht.atRuleEnd s')]
      simp only [Outcome.ok_bind]
      rw [ih (by simpa using hf)]
      simp

theorem maybeParseReturnType_ok {s s' : SymStream} {ty : Option TokenStream}
    (h : maybeParseReturnType s = .ok (ty, s')) : ∃ ss, s = items ss ++ s' ∧ ReturnTypeSyntax ss ty := by
  unfold maybeParseReturnType at h
  obtain ⟨x, h1, h2⟩ := Outcome.bind_eq_ok.mp h
  clear h
  obtain ⟨r, rfl⟩ := peekExpectSymbol_ok.mp h1
  split at h2
  · rename_i hx
    obtain ⟨⟨t, s1⟩, h3, h4⟩ := Outcome.bind_eq_ok.mp h2
    cases h4
    obtain ⟨ss, e, -, ht⟩ := parseType_ok.mp h3
    simp only [List.tail_cons] at e
    subst e
    exact ⟨x :: ss, rfl, .some hx ht⟩
  · cases h2
    exact ⟨[], rfl, .none⟩

theorem maybeParseReturnType_complete {ss : List Symbol} {ty : Option TokenStream}
    (h : ReturnTypeSyntax ss ty) {s' : SymStream} {x : Symbol} {r : SymStream} (hs : s' = .ok x :: r)
    (hx : Is (.op .arrow) x) : maybeParseReturnType (items ss ++ s') = .ok (ty, s') := by
  subst hs
  cases h with
  | none =>
    simp only [Is] at hx
    simp [maybeParseReturnType, items, peekExpectSymbol, hx]
  | @some a ss ty ha ht =>
    have := parseType_ok.mpr ⟨ss, rfl, ⟨x, r, rfl, .inl hx⟩, ht⟩
    simp only [Is] at ha
    simp only [maybeParseReturnType, items, List.map_cons, List.cons_append, peekExpectSymbol, Outcome.ok_bind,
      ha, List.tail_cons, this]
    rfl

theorem parseDeclaration_sound {m m' : LabelTypes} {s s' : SymStream} {rules : List ARule}
    (h : parseDeclaration tx m s = .ok (rules, m', s')) :
    ∃ ss d, s = items ss ++ s' ∧ DeclarationSyntax tx ss d ∧ rules = d.rules ∧
      m.add tx d.label d.type = .ok m' := by
  unfold parseDeclaration at h
  obtain ⟨⟨name, s1⟩, h1, g⟩ := Outcome.bind_eq_ok.mp h
  clear h; have h := g; clear g
  obtain ⟨a, b, c, rfl, ha, hb, hc⟩ := parseProductionRef_ok.mp h1
  obtain ⟨⟨ty, s2⟩, h2, g⟩ := Outcome.bind_eq_ok.mp h
  clear h; have h := g; clear g
  obtain ⟨ts, rfl, ht⟩ := maybeParseReturnType_ok h2
  obtain ⟨m1, h3, g⟩ := Outcome.bind_eq_ok.mp h
  clear h; have h := g; clear g
  obtain ⟨⟨t, s3⟩, h4, g⟩ := Outcome.bind_eq_ok.mp h
  clear h; have h := g; clear g
  obtain ⟨arrow, rfl, harrow, -⟩ := expectSymbolWith_ok.mp h4
  obtain ⟨⟨r, s4⟩, h5, g⟩ := Outcome.bind_eq_ok.mp h
  clear h; have h := g; clear g
  obtain ⟨ss, al, rfl, hal, rfl⟩ := parseRule_sound h5
  obtain ⟨⟨rs, s5⟩, h6, g⟩ := Outcome.bind_eq_ok.mp h
  clear h; have h := g; clear g
  obtain ⟨rest, as, e, htail, rfl⟩ := parseAlternatives_sound h6
  subst e
  cases h
  obtain ⟨rs, semi, e, h7, h8⟩ := htail.rules hal
  refine ⟨a :: b :: c :: (ts ++ arrow :: (rs ++ [semi])), ⟨name, ty, al :: as⟩, ?_,
    .mk ha hb hc ht (isOp_iff.mp harrow) h7 h8, by simp [Declaration.rules], h3⟩
  rw [← e]
  simp [items]

theorem parseDeclaration_complete {ss : List Symbol} {d : Declaration} (h : DeclarationSyntax tx ss d)
    {m m' : LabelTypes} (hm : m.add tx d.label d.type = .ok m') (s' : SymStream) :
    parseDeclaration tx m (items ss ++ s') = .ok (d.rules, m', s') := by
  cases h with
  | @mk a b c arrow semi ts rs label ty as ha hb hc ht harrow hrs hsemi =>
    obtain ⟨ss, rest, al, as', rfl, e, h1, h2⟩ := RulesSyntax_tail hrs hsemi
    have e' : items (a :: b :: c :: (ts ++ arrow :: (rs ++ [semi]))) ++ s' =
        .ok a :: .ok b :: .ok c :: (items ts ++ (.ok arrow :: (items ss ++ (items rest ++ s')))) := by
      rw [e]; simp [items]
    have h3 : parseProductionRef (.ok a :: .ok b :: .ok c ::
        (items ts ++ (.ok arrow :: (items ss ++ (items rest ++ s'))))) =
        .ok (label, items ts ++ (.ok arrow :: (items ss ++ (items rest ++ s')))) :=
      parseProductionRef_ok.mpr ⟨a, b, c, rfl, ha, hb, hc⟩
    have h4 : expectSymbolWith (fun k => k.isOp .arrow) (.ok arrow :: (items ss ++ (items rest ++ s'))) =
        .ok (arrow.tokens, items ss ++ (items rest ++ s')) :=
      expectSymbolWith_ok.mpr ⟨arrow, rfl, isOp_iff.mpr harrow, rfl⟩
    simp only at hm
    unfold parseDeclaration
    rw [e', h3]
    simp only [Outcome.ok_bind]
    rw [maybeParseReturnType_complete ht rfl harrow]
    simp only [Outcome.ok_bind, hm, h4]
    rw [parseRule_complete h1 (h2.atRuleEnd s')]
    simp only [Outcome.ok_bind]
    have hl := h2.length
    rw [parseAlternatives_complete h2 (by simp only [items, List.length_append, List.length_map]; omega)]
    simp [Declaration.rules]

/-- The map after several declarations. -/
def LabelTypes.addAll (tx : Text) (m : LabelTypes) : List Declaration → Outcome MacroError LabelTypes
  | [] => .ok m
  | d :: ds => do
    let m ← m.add tx d.label d.type
    addAll tx m ds

theorem parseDeclarations_sound {fuel : Nat} {rules rules' : List ARule} {m m' : LabelTypes} {s : SymStream}
    (h : parseDeclarations tx fuel rules m s = .ok (rules', m')) :
    ∃ ss ds, s = items ss ∧ DeclarationsSyntax tx ss ds ∧
      rules' = rules ++ ds.flatMap Declaration.rules ∧ m.addAll tx ds = .ok m' := by
  induction fuel generalizing rules m s with
  | zero => cases h
  | succ fuel ih =>
    rw [parseDeclarations.eq_def] at h
    simp only at h
    split at h
    · cases h
      exact ⟨[], [], rfl, .nil, by simp, rfl⟩
    · obtain ⟨⟨more, m1, s1⟩, h1, h2⟩ := Outcome.bind_eq_ok.mp h
      obtain ⟨ss, d, e, hd, rfl, hm⟩ := parseDeclaration_sound h1
      obtain ⟨ss', ds, e', hds, rfl, hm'⟩ := ih h2
      simp only at e'
      subst e'
      refine ⟨ss ++ ss', d :: ds, ?_, .cons hd hds, by simp, ?_⟩
      · rw [e]; simp [items]
      · simp only [LabelTypes.addAll, hm, Outcome.ok_bind, hm']

theorem DeclarationSyntax_length {ss : List Symbol} {d : Declaration} (h : DeclarationSyntax tx ss d) :
    ss ≠ [] := by
  cases h; simp

theorem DeclarationsSyntax_length {ss : List Symbol} {ds : List Declaration}
    (h : DeclarationsSyntax tx ss ds) : ds.length ≤ ss.length := by
  induction h with
  | nil => simp
  | cons hd _ ih =>
    have := List.length_pos_iff.mpr (DeclarationSyntax_length hd)
    simp only [List.length_cons, List.length_append]
    omega

theorem parseDeclarations_complete {ss : List Symbol} {ds : List Declaration}
    (h : DeclarationsSyntax tx ss ds) {fuel : Nat} (hf : ds.length < fuel) (rules : List ARule)
    {m m' : LabelTypes} (hm : m.addAll tx ds = .ok m') :
    parseDeclarations tx fuel rules m (items ss) = .ok (rules ++ ds.flatMap Declaration.rules, m') := by
  induction h generalizing fuel rules m with
  | nil =>
    cases fuel with
    | zero => cases hf
    | succ fuel =>
      cases hm
      simp [parseDeclarations, items]
  | @cons s ss d ds hd hds ih =>
    cases fuel with
    | zero => cases hf
    | succ fuel =>
      obtain ⟨m1, h1, h2⟩ := Outcome.bind_eq_ok.mp hm
      have e : items (s ++ ss) = items s ++ items ss := by simp [items]
      have h3 := parseDeclaration_complete hd h1 (items ss)
      rw [parseDeclarations.eq_def]
      simp only
      split
      · rename_i h4
        have := DeclarationSyntax_length hd
        simp [items, this] at h4
      · rename_i h4
        rw [e, h3]
        simp only [Outcome.ok_bind]
        rw [ih (by simpa using hf) _ h2]
        simp

/-! ## Options -/

theorem parseTypeOption_ok {keyword : String} {s s' : SymStream} {ty : TokenStream} :
    (do let (_, s) ← expectSymbolWith (·.isIdent keyword) s
        parseOptionRemainder parseType s) = .ok (ty, s') ↔
      ∃ ss, s = items ss ++ s' ∧ TypeOptionSyntax keyword ss ty := by
  constructor
  · intro h
    obtain ⟨⟨t, s1⟩, h1, h2⟩ := Outcome.bind_eq_ok.mp h
    clear h
    obtain ⟨k, rfl, hk, -⟩ := expectSymbolWith_ok.mp h1
    unfold parseOptionRemainder at h2
    obtain ⟨⟨t, s2⟩, h3, h4⟩ := Outcome.bind_eq_ok.mp h2
    obtain ⟨colon, rfl, hc, -⟩ := expectSymbolWith_ok.mp h3
    obtain ⟨⟨v, s3⟩, h5, h6⟩ := Outcome.bind_eq_ok.mp h4
    obtain ⟨ss, rfl, -, hv⟩ := parseType_ok.mp h5
    obtain ⟨⟨t, s4⟩, h7, h8⟩ := Outcome.bind_eq_ok.mp h6
    obtain ⟨semi, rfl, hs, -⟩ := expectSymbolWith_ok.mp h7
    cases h8
    exact ⟨k :: colon :: (ss ++ [semi]), by simp [items],
      .mk (isIdent_iff.mp hk) (isOp_iff.mp hc) hv (isOp_iff.mp hs)⟩
  · rintro ⟨ss, rfl, h⟩
    cases h with
    | @mk k colon semi ss ty hk hc hv hs =>
      have e : items (k :: colon :: (ss ++ [semi])) ++ s' =
          .ok k :: .ok colon :: (items ss ++ (.ok semi :: s')) := by simp [items]
      rw [e]
      refine Outcome.bind_eq_ok.mpr ⟨(k.tokens, _),
        expectSymbolWith_ok.mpr ⟨k, rfl, isIdent_iff.mpr hk, rfl⟩, ?_⟩
      unfold parseOptionRemainder
      refine Outcome.bind_eq_ok.mpr ⟨(colon.tokens, _),
        expectSymbolWith_ok.mpr ⟨colon, rfl, isOp_iff.mpr hc, rfl⟩, ?_⟩
      refine Outcome.bind_eq_ok.mpr ⟨(ty, .ok semi :: s'),
        parseType_ok.mpr ⟨ss, rfl, ⟨semi, s', rfl, .inr hs⟩, hv⟩, ?_⟩
      exact Outcome.bind_eq_ok.mpr ⟨(semi.tokens, s'),
        expectSymbolWith_ok.mpr ⟨semi, rfl, isOp_iff.mpr hs, rfl⟩, rfl⟩

theorem parseName_ok {s s' : SymStream} {n : String} :
    parseName s = .ok (n, s') ↔ ∃ ss, s = items ss ++ s' ∧ NameSyntax ss n := by
  unfold parseName parseOption
  constructor
  · intro h
    obtain ⟨⟨t, s1⟩, h1, h2⟩ := Outcome.bind_eq_ok.mp h
    clear h
    obtain ⟨k, rfl, hk, -⟩ := expectSymbolWith_ok.mp h1
    unfold parseOptionRemainder at h2
    obtain ⟨⟨t, s2⟩, h3, h4⟩ := Outcome.bind_eq_ok.mp h2
    obtain ⟨colon, rfl, hc, -⟩ := expectSymbolWith_ok.mp h3
    obtain ⟨⟨v, s3⟩, h5, h6⟩ := Outcome.bind_eq_ok.mp h4
    obtain ⟨x, rfl, hv⟩ := parseIdentifier_ok.mp h5
    obtain ⟨⟨t, s4⟩, h7, h8⟩ := Outcome.bind_eq_ok.mp h6
    obtain ⟨semi, rfl, hs, -⟩ := expectSymbolWith_ok.mp h7
    cases h8
    exact ⟨[k, colon, x, semi], rfl, .mk (isIdent_iff.mp hk) (isOp_iff.mp hc) hv (isOp_iff.mp hs)⟩
  · rintro ⟨ss, rfl, h⟩
    cases h with
    | @mk k colon x semi name hk hc hv hs =>
      refine Outcome.bind_eq_ok.mpr ⟨(k.tokens, .ok colon :: .ok x :: .ok semi :: s'),
        expectSymbolWith_ok.mpr ⟨k, rfl, isIdent_iff.mpr hk, rfl⟩, ?_⟩
      unfold parseOptionRemainder
      refine Outcome.bind_eq_ok.mpr ⟨(colon.tokens, .ok x :: .ok semi :: s'),
        expectSymbolWith_ok.mpr ⟨colon, rfl, isOp_iff.mpr hc, rfl⟩, ?_⟩
      refine Outcome.bind_eq_ok.mpr ⟨(n, .ok semi :: s'), parseIdentifier_ok.mpr ⟨x, rfl, hv⟩, ?_⟩
      exact Outcome.bind_eq_ok.mpr ⟨(semi.tokens, s'),
        expectSymbolWith_ok.mpr ⟨semi, rfl, isOp_iff.mpr hs, rfl⟩, rfl⟩

/-- Options begin with their keyword. -/
theorem TypeOptionSyntax_head {keyword : String} {ss : List Symbol} {ty : TokenStream}
    (h : TypeOptionSyntax keyword ss ty) : ∃ k r, ss = k :: r ∧ Is (.ident keyword) k := by
  cases h with
  | mk hk _ _ _ => exact ⟨_, _, rfl, hk⟩

theorem typeOption_cons {keyword : String} {k : Symbol} (hk : Is (.ident keyword) k) {s s' : SymStream}
    {ty : TokenStream} : parseOptionRemainder parseType s = .ok (ty, s') ↔
      ∃ ss, .ok k :: s = items ss ++ s' ∧ TypeOptionSyntax keyword ss ty := by
  rw [← parseTypeOption_ok (keyword := keyword)]
  have : expectSymbolWith (fun x => x.isIdent keyword) (.ok k :: s) = .ok (k.tokens, s) :=
    expectSymbolWith_ok.mpr ⟨k, rfl, isIdent_iff.mpr hk, rfl⟩
  rw [this]
  rfl

theorem parseTerminalType_ok {s s' : SymStream} {t : TerminalType} :
    parseTerminalType s = .ok (t, s') ↔ ∃ ss, s = items ss ++ s' ∧ TerminalSyntax ss t := by
  unfold parseTerminalType
  constructor
  · intro h
    obtain ⟨⟨x, s1⟩, h1, h2⟩ := Outcome.bind_eq_ok.mp h
    clear h
    rw [expectSymbol_ok] at h1
    subst h1
    simp only at h2
    split at h2
    · rename_i hx
      obtain ⟨⟨ty, s2⟩, h3, h4⟩ := Outcome.bind_eq_ok.mp h2
      cases h4
      obtain ⟨ss, e, h5⟩ := (typeOption_cons (isIdent_iff.mp hx)).mp h3
      exact ⟨ss, e, .raw h5⟩
    · split at h2
      · rename_i hx
        obtain ⟨⟨ty, s2⟩, h3, h4⟩ := Outcome.bind_eq_ok.mp h2
        cases h4
        obtain ⟨ss, e, h5⟩ := (typeOption_cons (isIdent_iff.mp hx)).mp h3
        exact ⟨ss, e, .enum h5⟩
      · cases h2
  · rintro ⟨ss, rfl, h⟩
    cases h with
    | @raw ty h =>
      obtain ⟨k, r, rfl, hk⟩ := TypeOptionSyntax_head h
      have h1 : parseOptionRemainder parseType (items r ++ s') = .ok (ty, s') :=
        (typeOption_cons hk).mpr ⟨k :: r, rfl, h⟩
      have h2 := isIdent_iff.mpr hk
      simp only [items, List.map_cons, List.cons_append, expectSymbol, Outcome.ok_bind, h2, if_true, h1]
      rfl
    | @enum ty h =>
      obtain ⟨k, r, rfl, hk⟩ := TypeOptionSyntax_head h
      have h1 : parseOptionRemainder parseType (items r ++ s') = .ok (ty, s') :=
        (typeOption_cons hk).mpr ⟨k :: r, rfl, h⟩
      have h2 := isIdent_iff.mpr hk
      have h3 : ¬ k.sym.isIdent "terminal" = true := by
        rw [isIdent_iff]
        simp only [Is] at hk
        rw [hk]
        simp
      simp only [items, List.map_cons, List.cons_append, expectSymbol, Outcome.ok_bind, h2, if_true, h1,
        if_neg h3]
      rfl

theorem maybeParseErrorType_sound {s s' : SymStream} {t : Option TokenStream}
    (h : maybeParseErrorType s = .ok (t, s')) : ∃ ss, s = items ss ++ s' ∧ ErrorSyntax ss t := by
  unfold maybeParseErrorType at h
  obtain ⟨x, h1, h2⟩ := Outcome.bind_eq_ok.mp h
  clear h
  obtain ⟨r, rfl⟩ := peekExpectSymbol_ok.mp h1
  split at h2
  · rename_i hx
    obtain ⟨⟨ty, s2⟩, h3, h4⟩ := Outcome.bind_eq_ok.mp h2
    cases h4
    obtain ⟨ss, e, h5⟩ := (typeOption_cons (isIdent_iff.mp hx)).mp h3
    exact ⟨ss, e, .some h5⟩
  · cases h2
    exact ⟨[], rfl, .none⟩

theorem maybeParseErrorType_complete {ss : List Symbol} {t : Option TokenStream} (h : ErrorSyntax ss t)
    {s' : SymStream} (hs : ∃ x r, s' = .ok x :: r ∧ ¬ Is (.ident "error_type") x) :
    maybeParseErrorType (items ss ++ s') = .ok (t, s') := by
  unfold maybeParseErrorType
  cases h with
  | none =>
    obtain ⟨x, r, rfl, hx⟩ := hs
    have : ¬ x.sym.isIdent "error_type" = true := by rw [isIdent_iff]; exact hx
    simp only [items, List.map_nil, List.nil_append, peekExpectSymbol, Outcome.ok_bind, if_neg this]
    rfl
  | @some ss ty h =>
    obtain ⟨k, r, rfl, hk⟩ := TypeOptionSyntax_head h
    have h1 : parseOptionRemainder parseType (items r ++ s') = .ok (ty, s') :=
      (typeOption_cons hk).mpr ⟨k :: r, rfl, h⟩
    have h2 := isIdent_iff.mpr hk
    simp only [items, List.map_cons, List.cons_append, peekExpectSymbol, Outcome.ok_bind, h2, if_true,
      List.tail_cons, h1]
    rfl

end Verif
