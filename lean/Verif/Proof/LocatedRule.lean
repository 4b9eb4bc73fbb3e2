import Verif.Spec.LocatedGen
import Verif.Proof.LocatedTokens

/-!
# Rules and constructors with their places are in the input
-/

set_option autoImplicit false
set_option linter.unusedSectionVars false

namespace Verif.Located

open Verif.Spec

variable {S : Type} (sp : Spans S) (tx : Text)

theorem expect_ok {s s' : LStream S} {x : LSymbol S} (h : expectSymbol sp s = .ok (x, s')) :
    s.items = .ok x :: s'.items := by
  obtain ⟨p, hO⟩ := okL_expect sp s x s' h
  have h1 := hO.items
  rw [expect_pre sp h hO] at h1
  exact h1

theorem peek_ok {s : LStream S} {x : LSymbol S} (h : peekExpectSymbol sp s = .ok x) :
    s.items = .ok x :: (take s).items := by
  obtain ⟨i, c⟩ := s
  rcases i with _ | ⟨_ | y, l⟩ <;> cases h
  rfl

theorem ref_place {s s' : LStream S} {r : String × S} (h : parseProductionRef sp s = .ok (r, s')) :
    ∃ a b c, s.items = okItems [a, b, c] ++ s'.items ∧ r.2 = sp.merge a.span c.span := by
  obtain ⟨⟨a, s1⟩, h1, h⟩ := Outcome.bind_eq_ok.mp h
  obtain ⟨⟨x, s2⟩, h2, h⟩ := Outcome.bind_eq_ok.mp h
  obtain ⟨p1, o1⟩ := okL_with sp _ _ s a s1 h1
  obtain ⟨x1, rfl, -, rfl⟩ := with_pre sp h1 o1
  dsimp only at h
  split at h
  · obtain ⟨⟨c, s3⟩, h3, h⟩ := Outcome.bind_eq_ok.mp h
    obtain ⟨p3, o3⟩ := okL_with sp _ _ s2 c s3 h3
    obtain ⟨x3, rfl, -, rfl⟩ := with_pre sp h3 o3
    have h4 := Outcome.ok.inj h
    have h5 := congrArg (·.1.2) h4
    have h6 := congrArg (·.2) h4
    refine ⟨x1, x, x3, ?_, h5.symm⟩
    rw [o1.items, expect_ok sp h2, o3.items, ← show s3 = s' from h6]
    rfl
  · cases h

theorem node_place {s s' : LStream S} {n : LNode S} (h : parseNode sp tx s = .ok (n, s')) :
    ∃ p, s.items = okItems p ++ s'.items ∧ NodeAt sp tx p n := by
  obtain ⟨pre, hO⟩ := okL_node sp tx s n s' h
  refine ⟨pre, hO.items, (node_pre sp tx h hO).1, ?_⟩
  have hitems := hO.items
  obtain ⟨x, hx, h1⟩ := Outcome.bind_eq_ok.mp h
  have hs := peek_ok sp hx
  have hterm : parseTerminal sp tx s = .ok (n, s') → n.2 = x.span ∧ ∀ l, n.1 ≠ .production l := by
    intro h2
    obtain ⟨⟨y, s1⟩, h3, h2⟩ := Outcome.bind_eq_ok.mp h2
    have h4 := expect_ok sp h3
    rw [hs] at h4
    have hxy : x = y := by
      have := (List.cons.inj h4).1
      injection this
    subst hxy
    dsimp only at h2
    split at h2
    · have h5 := congrArg (·.1) (Outcome.ok.inj h2)
      rw [← show _ = n from h5]
      exact ⟨rfl, by intro l h; cases h⟩
    · obtain ⟨z, h6, h2⟩ := Outcome.bind_eq_ok.mp h2
      split at h2
      · split at h2 <;>
        · have h5 := congrArg (·.1) (Outcome.ok.inj h2)
          rw [← show _ = n from h5]
          exact ⟨rfl, by intro l h; cases h⟩
      · have h5 := congrArg (·.1) (Outcome.ok.inj h2)
        rw [← show _ = n from h5]
        exact ⟨rfl, by intro l h; cases h⟩
    · have h5 := congrArg (·.1) (Outcome.ok.inj h2)
      rw [← show _ = n from h5]
      exact ⟨rfl, by intro l h; cases h⟩
    · cases h2
  have hne : ∃ r, pre = x :: r := by
    obtain ⟨y, r, h2, -⟩ := NodeSyntax_head (node_pre sp tx h hO).1
    match pre, h2 with
    | y :: r, _ =>
      rw [hs] at hitems
      have := (List.cons.inj hitems).1
      injection this with this
      exact ⟨r, by rw [this]⟩
  have key : (parseTerminal sp tx s = .ok (n, s')) ∨ ∃ r, parseProductionRef sp s = .ok (r, s') ∧ n = (.production r.1, r.2) := by
    cases hk : x.symbol.sym with
    | op o =>
      rw [hk] at h1
      cases o with
      | beginProd =>
        obtain ⟨⟨r, s1⟩, h2, h3⟩ := Outcome.bind_eq_ok.mp h1
        have h4 := Outcome.ok.inj h3
        have h5 : s1 = s' := congrArg (·.2) h4
        subst h5
        exact .inr ⟨r, h2, (congrArg (·.1) h4).symm⟩
      | _ => exact .inl h1
    | _ =>
      rw [hk] at h1
      exact .inl h1
  rcases key with h2 | ⟨r, h2, rfl⟩
  · obtain ⟨q, hq⟩ := hne
    exact .inl ⟨x, q, hq, hterm h2⟩
  · obtain ⟨a, b, c, h3, h4⟩ := ref_place sp h2
    rw [hitems] at h3
    exact .inr ⟨a, b, c, r.1, okItems_inj h3, h4, rfl⟩

theorem NodesFrom.append {p q : List (LSymbol S)} {ns ms : List (LNode S)} (h : NodesFrom sp tx p ns)
    (h' : NodesFrom sp tx q ms) : NodesFrom sp tx (p ++ q) (ns ++ ms) := by
  induction h with
  | nil => exact h'
  | cons h1 _ ih =>
    rw [List.append_assoc]
    exact .cons h1 ih

theorem nodes_place {rule rule' : List (LNode S)} {block : Option (LBlock S)} {s s' : LStream S}
    (h : nodes sp tx rule s = .ok ((rule', block), s')) :
    ∃ q blk ns, s.items = okItems (q ++ blk) ++ s'.items ∧ rule' = rule ++ ns ∧ NodesFrom sp tx q ns ∧
      BlockAt blk block := by
  generalize hn : s.items.length = n
  induction n using Nat.strongRecOn generalizing rule s with
  | ind n ih =>
    rw [nodes_eq] at h
    obtain ⟨x, hx, h⟩ := Outcome.bind_eq_ok.mp h
    have h1 : (parseNode sp tx s >>= fun p => nodes sp tx (rule ++ [p.1]) p.2) = .ok ((rule', block), s') →
        ∃ q blk ns, s.items = okItems (q ++ blk) ++ s'.items ∧ rule' = rule ++ ns ∧ NodesFrom sp tx q ns ∧
          BlockAt blk block := by
      intro h
      obtain ⟨⟨v, s1⟩, h2, h3⟩ := Outcome.bind_eq_ok.mp h
      obtain ⟨p, h4, h5⟩ := node_place sp tx h2
      obtain ⟨q, blk, ns, h6, h7, h8, h9⟩ := ih s1.items.length (hn ▸ node_consumes sp tx h2) h3 rfl
      exact ⟨p ++ q, blk, v :: ns, by rw [h4, h6]; simp, by rw [h7]; simp, .cons h5 h8, h9⟩
    have h2 : rule' = rule → block = none → s' = s → ∃ q blk ns, s.items = okItems (q ++ blk) ++ s'.items ∧
        rule' = rule ++ ns ∧ NodesFrom sp tx q ns ∧ BlockAt blk block := by
      rintro rfl rfl rfl
      exact ⟨[], [], [], rfl, by simp, .nil, rfl⟩
    cases hk : x.symbol.sym with
    | op o =>
      rw [hk] at h
      cases o <;> first
        | exact h1 h
        | (have h3 := Outcome.ok.inj h
           exact h2 (congrArg (·.1.1) h3).symm (congrArg (·.1.2) h3).symm (congrArg (·.2) h3).symm)
    | group d i =>
      rw [hk] at h
      have h3 := Outcome.ok.inj h
      refine ⟨[], [x], [], ?_, ?_, .nil, d, i, hk, (congrArg (·.1.2) h3).symm⟩
      · rw [← show take s = s' from congrArg (·.2) h3]
        exact peek_ok sp hx
      · rw [List.append_nil]
        exact (congrArg (·.1.1) h3).symm
    | _ =>
      rw [hk] at h
      exact h1 h

theorem rule_place {name : String} {ty : Option (LType S)} {s s' : LStream S} {r : LRule S}
    (h : parseRule sp tx name ty s = .ok (r, s')) :
    ∃ q blk, s.items = okItems (q ++ blk) ++ s'.items ∧ r.rule ≠ [] ∧ NodesFrom sp tx q r.rule ∧ BlockAt blk r.block := by
  rw [parseRule_eq] at h
  obtain ⟨⟨n, s1⟩, h1, h⟩ := Outcome.bind_eq_ok.mp h
  obtain ⟨⟨⟨rule, block⟩, s2⟩, h2, h⟩ := Outcome.bind_eq_ok.mp h
  obtain ⟨p, h3, h4⟩ := node_place sp tx h1
  obtain ⟨q, blk, ns, h5, h6, h7, h8⟩ := nodes_place sp tx h2
  unfold ruleEnd at h
  split at h
  · cases h
  · have h9 := Outcome.ok.inj h
    have h10 : s2 = s' := congrArg (·.2) h9
    have h11 : _ = r := congrArg (·.1) h9
    subst h10 h11
    refine ⟨p ++ q, blk, by rw [h3, h5]; simp, ?_, ?_, h8⟩ <;> dsimp only <;> rw [h6]
    · simp
    · exact .cons h4 h7

theorem RuleIn.prepend {w : List (LSymbol S)} {items items' : List (LItem S)} {r : LRule S} (h : RuleIn sp tx items r)
    (he : items' = okItems w ++ items) : RuleIn sp tx items' r := by
  obtain ⟨p, k, q, blk, z, rest, h1, h2⟩ := h
  exact ⟨w ++ p, k, q, blk, z, rest, by rw [he, h1]; simp, h2⟩

/-- A rule followed by the rest of its declaration. -/
theorem alts_place {name : String} {ty : Option (LType S)} {rules rules' : List (LRule S)} {s s' : LStream S}
    (h : alts sp tx name ty rules s = .ok (rules', s')) :
    (∃ z rest, s.items = .ok z :: rest ∧ (Is (.op .pipe) z.symbol ∨ Is (.op .semicolon) z.symbol)) ∧
      ∀ r ∈ rules', r ∈ rules ∨ RuleIn sp tx s.items r := by
  generalize hn : s.items.length = n
  induction n using Nat.strongRecOn generalizing rules s with
  | ind n ih =>
    rw [alts_eq] at h
    obtain ⟨⟨x, s1⟩, h1, h⟩ := Outcome.bind_eq_ok.mp h
    have hx := expect_ok sp h1
    unfold altsNext at h
    dsimp only at h
    cases hk : x.symbol.sym with
    | op o =>
      rw [hk] at h
      cases o with
      | pipe =>
        obtain ⟨⟨r, s2⟩, h2, h⟩ := Outcome.bind_eq_ok.mp h
        obtain ⟨q, blk, h3, h0, h4, h5⟩ := rule_place sp tx h2
        have hlen : s2.items.length < n := by
          rw [← hn, hx, h3]
          simp
          omega
        obtain ⟨⟨z, rest, h6, h7⟩, h8⟩ := ih s2.items.length hlen h rfl
        refine ⟨⟨x, _, hx, .inl hk⟩, fun r' hr' => ?_⟩
        rcases h8 r' hr' with h9 | h9
        · rcases List.mem_append.mp h9 with h9 | h9
          · exact .inl h9
          · rw [List.mem_singleton.mp h9]
            refine .inr ⟨[], x, q, blk, z, rest, ?_, .inr hk, h7, h0, h4, h5⟩
            rw [hx, h3, h6]
            simp
        · refine .inr (h9.prepend sp tx (w := x :: (q ++ blk)) ?_)
          rw [hx, h3]
          rfl
      | semicolon =>
        refine ⟨⟨x, _, hx, .inr hk⟩, fun r' hr' => .inl ?_⟩
        rw [show rules = rules' from congrArg (·.1) (Outcome.ok.inj h)]
        exact hr'
      | _ => cases h
    | _ =>
      rw [hk] at h
      cases h

theorem declaration_place {m m' : LLabelTypes S} {s s' : LStream S} {rules : List (LRule S)}
    (h : parseDeclaration sp tx m s = .ok ((rules, m'), s')) : ∀ r ∈ rules, RuleIn sp tx s.items r := by
  rw [parseDeclaration_eq] at h
  obtain ⟨⟨r, s1⟩, h1, h⟩ := Outcome.bind_eq_ok.mp h
  obtain ⟨⟨ty, s2⟩, h2, h⟩ := Outcome.bind_eq_ok.mp h
  obtain ⟨m1, h3, h⟩ := Outcome.bind_eq_ok.mp h
  obtain ⟨⟨y, s3⟩, h4, h⟩ := Outcome.bind_eq_ok.mp h
  obtain ⟨⟨q, s4⟩, h5, h⟩ := Outcome.bind_eq_ok.mp h
  obtain ⟨⟨z, s5⟩, h6, h⟩ := Outcome.bind_eq_ok.mp h
  have h7 : z = rules := congrArg (·.1.1) (Outcome.ok.inj h)
  subst h7
  obtain ⟨p1, o1⟩ := okL_ref sp s r s1 h1
  obtain ⟨p2, o2⟩ := okL_returnType sp s1 ty s2 h2
  obtain ⟨p3, o3⟩ := okL_with sp _ _ s2 y s3 h4
  obtain ⟨k, rfl, hk, -⟩ := with_pre sp h4 o3
  obtain ⟨a, blk, h8, h0, h9, h10⟩ := rule_place sp tx h5
  obtain ⟨⟨w, rest, h11, h12⟩, h13⟩ := alts_place sp tx (rules' := z) (s' := s5) h6
  intro r' hr'
  rcases h13 r' hr' with h14 | h14
  · rw [List.mem_singleton.mp h14]
    refine ⟨p1 ++ p2, k, a, blk, w, rest, ?_, .inl (isOp_iff.mp hk), h12, h0, h9, h10⟩
    rw [o1.items, o2.items, o3.items, h8, h11]
    simp
  · refine h14.prepend sp tx (w := p1 ++ (p2 ++ (k :: (a ++ blk)))) ?_
    rw [o1.items, o2.items, o3.items, h8]
    simp

theorem decls_place {m : LLabelTypes S} {s : LStream S} {rules rules' : List (LRule S)} {m' : LLabelTypes S}
    (h : decls sp tx rules m s = .ok (rules', m')) : ∀ r ∈ rules', r ∈ rules ∨ RuleIn sp tx s.items r := by
  generalize hn : s.items.length = n
  induction n using Nat.strongRecOn generalizing rules m s with
  | ind n ih =>
    rw [decls_eq] at h
    dsimp only at h
    split at h
    · rw [show rules = rules' from congrArg (·.1) (Outcome.ok.inj h)]
      exact fun r hr => .inl hr
    · obtain ⟨⟨⟨more, m1⟩, s1⟩, h1, h⟩ := Outcome.bind_eq_ok.mp h
      intro r hr
      rcases ih s1.items.length (hn ▸ declaration_consumes sp tx h1) h rfl r hr with h2 | h2
      · rcases List.mem_append.mp h2 with h2 | h2
        · exact .inl h2
        · exact .inr (declaration_place sp tx h1 r h2)
      · obtain ⟨pre, hO⟩ := okL_declaration sp tx m s (more, m1) s1 h1
        exact .inr (h2.prepend sp tx hO.items)

/-- Every rule of a grammar is written in the file. -/
theorem grammar_rules {fuel : Nat} {s : LStream S} {gi : GrammarInfo} {rules : List (LRule S)}
    (h : parseGrammar sp tx fuel s = .ok (gi, rules)) : ∀ r ∈ rules, RuleIn sp tx s.items r := by
  rw [parseGrammar_eq] at h
  obtain ⟨⟨n, s1⟩, h1, h⟩ := Outcome.bind_eq_ok.mp h
  obtain ⟨⟨t, s2⟩, h2, h⟩ := Outcome.bind_eq_ok.mp h
  obtain ⟨⟨et, s3⟩, h3, h⟩ := Outcome.bind_eq_ok.mp h
  obtain ⟨⟨rules', m⟩, h4, h⟩ := Outcome.bind_eq_ok.mp h
  obtain ⟨pn, o1⟩ := okL_name sp _ n s1 h1
  obtain ⟨pt, o2⟩ := okL_terminalType sp _ t s2 h2
  obtain ⟨pe, o3⟩ := okL_errorType sp _ et s3 h3
  unfold grammarEnd at h
  obtain ⟨ig, -, h⟩ := Outcome.bind_eq_ok.mp h
  obtain ⟨tb, -, h⟩ := Outcome.bind_eq_ok.mp h
  have h5 : rules' = rules := congrArg (·.2) (Outcome.ok.inj h)
  subst h5
  intro r hr
  rcases decls_place sp tx h4 r hr with h6 | h6
  · cases h6
  · refine h6.prepend sp tx (w := pn ++ (pt ++ pe)) ?_
    have h7 : s1.items = okItems pt ++ s2.items := o2.items
    have h8 : s2.items = okItems pe ++ s3.items := o3.items
    rw [o1.items, h7, h8]
    simp

theorem consumeNext_op (b : LPunct S) (ch : Char) (j : Bool) (a : S) :
    match (b.consumeNext sp ch j a).2 with
    | .ok (some x) => ∃ o, x.symbol.sym = .op o
    | _ => True := by
  cases b with
  | empty =>
    simp only [LPunct.consumeNext]
    by_cases h1 : ch = ';'; · simp only [h1, if_true]; exact ⟨_, rfl⟩
    simp only [h1, if_false]
    by_cases h2 : ch = '#'; · simp only [h2, if_true]; exact ⟨_, rfl⟩
    simp only [h2, if_false]
    by_cases h3 : ch = '<'; · simp only [h3, if_true]; exact ⟨_, rfl⟩
    simp only [h3, if_false]
    by_cases h4 : ch = '>'; · simp only [h4, if_true]; exact ⟨_, rfl⟩
    simp only [h4, if_false]
    by_cases h5 : ch = '|'; · simp only [h5, if_true]; exact ⟨_, rfl⟩
    simp only [h5, if_false]
    by_cases h6 : ch = '!'; · simp only [h6, if_true]; exact ⟨_, rfl⟩
    simp only [h6, if_false]
    by_cases h7 : ch = '='
    · simp only [h7, if_true]
      cases j <;> simp
    simp only [h7, if_false]
    by_cases h8 : ch = ':'
    · simp only [h8, if_true]
      cases j
      · exact ⟨_, rfl⟩
      · simp
    simp only [h8, if_false]
  | prevWasEq t s =>
    simp only [LPunct.consumeNext]
    by_cases h1 : ch = '>'
    · simp only [h1, if_true]; exact ⟨_, rfl⟩
    · simp only [h1, if_false]
  | prevWasColon t s =>
    simp only [LPunct.consumeNext]
    by_cases h1 : ch = ':'
    · simp only [h1, if_true]; exact ⟨_, rfl⟩
    · simp only [h1, if_false]

/-- A group among the symbols is a group of the input, in braces. -/
theorem group_place {T : LTokens S} {b : LPunct S} {y : LSymbol S} {d : Delim} {i : TokenStream}
    (h : (Except.ok y : LItem S) ∈ tokenize sp tx b T) (hy : y.symbol.sym = .group d i) :
    d = .brace ∧ ∃ (T1 : LTokens S) (o : S) (T2 : LTokens S), T = T1.append (.group .brace y.span o y.inner T2) := by
  induction T generalizing b with
  | nil => cases h
  | group e a c inner rest _ ih =>
    simp only [tokenize, List.mem_cons] at h
    rcases h with h | h
    · cases e with
      | brace =>
        have h1 := Except.ok.inj h
        subst h1
        cases hy
        exact ⟨rfl, .nil, c, rest, rfl⟩
      | paren =>
        have h1 := Except.ok.inj h
        subst h1
        cases hy
      | bracket =>
        have h1 := Except.ok.inj h
        subst h1
        cases hy
      | none => cases h
    · obtain ⟨h1, T1, o, T2, rfl⟩ := ih h
      exact ⟨h1, .group e a c inner T1, o, T2, rfl⟩
  | ident name a rest ih =>
    simp only [tokenize, List.mem_cons] at h
    rcases h with h | h
    · unfold fromIdent at h
      split at h
      · have h1 := Except.ok.inj h
        subst h1
        cases hy
      · cases h
    · obtain ⟨h1, T1, o, T2, rfl⟩ := ih h
      exact ⟨h1, .ident name a T1, o, T2, rfl⟩
  | literal text a rest ih =>
    simp only [tokenize, List.mem_cons] at h
    rcases h with h | h
    · unfold fromLiteral at h
      split at h
      · have h1 := Except.ok.inj h
        subst h1
        cases hy
      · split at h
        · have h1 := Except.ok.inj h
          subst h1
          cases hy
        · cases h
    · obtain ⟨h1, T1, o, T2, rfl⟩ := ih h
      exact ⟨h1, .literal text a T1, o, T2, rfl⟩
  | punct ch j a rest ih =>
    have hop := consumeNext_op sp b ch j a
    have hrec : ∀ {b : LPunct S}, (Except.ok y : LItem S) ∈ tokenize sp tx b rest → d = .brace ∧
        ∃ (T1 : LTokens S) (o : S) (T2 : LTokens S),
          LTokens.punct ch j a rest = T1.append (.group .brace y.span o y.inner T2) := by
      intro b h
      obtain ⟨h1, T1, o, T2, rfl⟩ := ih h
      exact ⟨h1, .punct ch j a T1, o, T2, rfl⟩
    simp only [tokenize] at h
    generalize b.consumeNext sp ch j a = v at h hop
    obtain ⟨b', e | (_ | x)⟩ := v
    · simp only [List.mem_cons] at h
      rcases h with h | h
      · cases h
      · exact hrec h
    · exact hrec h
    · simp only [List.mem_cons] at h
      rcases h with h | h
      · have h1 := Except.ok.inj h
        subst h1
        obtain ⟨o, ho⟩ := hop
        rw [ho] at hy
        cases hy
      · exact hrec h

end Verif.Located
