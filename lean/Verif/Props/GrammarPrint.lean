import Verif.Props.GrammarSyntax

/-!
# C37: printing and reading grammar files
-/

set_option autoImplicit false

namespace Verif
open Spec

variable {tx : Text}

namespace C37

/-- The tokens of operators, apart from what follows. -/
def opTokens : Op → TokenStream
  | .arrow => .punct '=' true (.punct '>' false .nil)
  | .colon => .punct ':' false .nil
  | .semicolon => .punct ';' false .nil
  | .numberSign => .punct '#' false .nil
  | .beginProd => .punct '<' false .nil
  | .endProd => .punct '>' false .nil
  | .pipe => .punct '|' false .nil
  | .scope => .punct ':' true (.punct ':' false .nil)
  | .bang => .punct '!' false .nil

section Printer
-- Patterns are kept as text; `unprint` gives their tokens.
variable (unprint : String → TokenStream)

/-- Concatenation of token streams. -/
def cat : List TokenStream → TokenStream
  | [] => .nil
  | t :: ts => t.append (cat ts)

def nodeTokens : ANode → TokenStream
  | .production name => cat [opTokens .beginProd, .ident name .nil, opTokens .endProd]
  | .epsilon => opTokens .bang
  | .symbol ⟨name, .none⟩ =>
    if name.toList.head? = some '\'' then .literal name .nil else .ident name .nil
  | .symbol ⟨name, .wildcard⟩ =>
    .ident name (.group .paren (.punct '.' true (.punct '.' false .nil)) .nil)
  | .symbol ⟨name, .pattern p⟩ => .ident name (.group .paren (unprint p) .nil)

def ruleTokens (a : Alternative) : TokenStream :=
  (cat (a.1.map (nodeTokens unprint))).append
    (match a.2 with
    | none => .nil
    | some (d, inner) => .group d inner .nil)

def rulesTokens : List Alternative → TokenStream
  | [] => .nil
  | [a] => ruleTokens unprint a
  | a :: as => cat [ruleTokens unprint a, opTokens .pipe, rulesTokens as]

def declarationTokens (d : Declaration) : TokenStream :=
  cat [opTokens .beginProd, .ident d.label .nil, opTokens .endProd,
    (match d.type with
      | none => .nil
      | some ty => (opTokens .colon).append ty),
    opTokens .arrow, rulesTokens unprint d.alternatives, opTokens .semicolon]

def typeOptionTokens (keyword : String) (ty : TokenStream) : TokenStream :=
  cat [.ident keyword .nil, opTokens .colon, ty, opTokens .semicolon]

/-- A file as tokens. -/
def fileTokens (f : GrammarFile) : TokenStream :=
  cat [.ident "name" .nil, opTokens .colon, .ident f.name .nil, opTokens .semicolon,
    (match f.terminal with
      | .raw ty => typeOptionTokens "terminal" ty
      | .enum ty => typeOptionTokens "enum_terminal" ty),
    (match f.error with
      | none => .nil
      | some ty => typeOptionTokens "error_type" ty),
    cat (f.declarations.map (declarationTokens unprint))]

variable (tx)

/-- Types that can be written. -/
def PrintableType (ty : TokenStream) : Prop := JointOk ty ∧ ∃ ss, Lexes tx ty ss ∧ TypeSyntax ss ty

/-- Nodes that can be written. -/
def PrintableNode : ANode → Prop
  | .production name => Identifier tx name
  | .epsilon => True
  | .symbol ⟨name, .none⟩ => Identifier tx name ∨ name.toList.head? = some '\''
  | .symbol ⟨name, .wildcard⟩ => Identifier tx name
  | .symbol ⟨name, .pattern p⟩ => Identifier tx name ∧ tx.print (unprint p) = p ∧ ¬ Wildcard (unprint p)

/-- Rules that can be written. -/
structure PrintableRule (a : Alternative) : Prop where
  nodes : ∀ n ∈ a.1, PrintableNode tx unprint n
  nonempty : a.1 ≠ []
  alone : Alone a.1
  block : ∀ d inner, a.2 = some (d, inner) → d = .brace

/-- Declarations that can be written. -/
structure PrintableDeclaration (d : Declaration) : Prop where
  label : Identifier tx d.label
  type : ∀ ty, d.type = some ty → PrintableType tx ty
  rules : ∀ a ∈ d.alternatives, PrintableRule tx unprint a
  nonempty : d.alternatives ≠ []

/-- Files that can be written. -/
structure PrintableFile (f : GrammarFile) : Prop where
  keywords : Identifier tx "name" ∧ Identifier tx "terminal" ∧ Identifier tx "enum_terminal" ∧
    Identifier tx "error_type"
  name : Identifier tx f.name
  terminal : ∀ ty, f.terminal = .raw ty ∨ f.terminal = .enum ty → PrintableType tx ty
  error : ∀ ty, f.error = some ty → PrintableType tx ty
  declarations : ∀ d ∈ f.declarations, PrintableDeclaration tx unprint d

end Printer

theorem is_mk (k : SymT) (t : TokenStream) : Is k ⟨k, t⟩ := rfl

theorem lexes_append {a b : TokenStream} {ss ss' : List Symbol} (h : Lexes tx a ss) (h' : Lexes tx b ss') :
    Lexes tx (a.append b) (ss ++ ss') := by
  induction h with
  | nil => exact h'
  | cons hs _ ih =>
    rw [TokenStream.append_assoc]
    exact .cons hs ih

theorem lexes_one {t : TokenStream} {s : SymT} (h : SymbolTokens tx t s) : Lexes tx t [⟨s, t⟩] := by
  have := Lexes.cons h .nil
  rwa [TokenStream.append_nil] at this

theorem op_lexes (o : Op) : Lexes tx (opTokens o) [⟨.op o, opTokens o⟩] := by
  refine lexes_one ?_
  cases o
  · exact .arrow false
  · exact .colon
  · exact .single .semicolon
  · exact .single .numberSign
  · exact .single .beginProd
  · exact .single .endProd
  · exact .single .pipe
  · exact .scope false
  · exact .single .bang

theorem joint_append {a b : TokenStream} (h : JointOk a) (h' : JointOk b) : JointOk (a.append b) := by
  induction a with
  | nil => exact h'
  | group d i r _ ih => exact ih h
  | ident n r ih => exact ih h
  | literal n r ih => exact ih h
  | punct c j r ih =>
    refine ⟨?_, ih h.2⟩
    intro hj hq
    obtain ⟨c', j', r', rfl⟩ := h.1 hj hq
    exact ⟨c', j', r'.append b, rfl⟩

theorem joint_cat {l : List TokenStream} (h : ∀ t ∈ l, JointOk t) : JointOk (cat l) := by
  induction l with
  | nil => trivial
  | cons t l ih => exact joint_append (h t (by simp)) (ih fun t ht => h t (by simp [ht]))

theorem op_joint (o : Op) : JointOk (opTokens o) := by
  cases o <;> simp [opTokens, JointOk]

variable {unprint : String → TokenStream}

theorem node_print {n : ANode} (h : PrintableNode tx unprint n) :
    JointOk (nodeTokens unprint n) ∧ ∃ ss, Lexes tx (nodeTokens unprint n) ss ∧ NodeSyntax tx ss n := by
  cases n with
  | production name =>
    refine ⟨joint_cat (by simp [op_joint, JointOk]), [⟨.op .beginProd, opTokens .beginProd⟩,
      ⟨.ident name, .ident name .nil⟩, ⟨.op .endProd, opTokens .endProd⟩], ?_,
      .production (is_mk _ _) (is_mk _ _) (is_mk _ _)⟩
    exact lexes_append (op_lexes _) (lexes_append (lexes_one (.ident h)) (lexes_append (op_lexes _) .nil))
  | epsilon =>
    exact ⟨op_joint .bang, [⟨.op .bang, opTokens .bang⟩], op_lexes .bang, .epsilon (is_mk _ _)⟩
  | symbol s =>
    obtain ⟨name, p⟩ := s
    cases p with
    | none =>
      by_cases hq : name.toList.head? = some '\''
      · simp only [nodeTokens, hq, if_true]
        obtain ⟨r, hr⟩ := List.head?_eq_some_iff.mp hq
        exact ⟨trivial, _, lexes_one (.char hr), .literal (is_mk _ _)⟩
      · simp only [nodeTokens, hq, if_false]
        rcases h with h | h
        · exact ⟨trivial, _, lexes_one (.ident h), .plain (is_mk _ _)⟩
        · exact absurd h hq
    | wildcard =>
      refine ⟨trivial, [⟨.ident name, .ident name .nil⟩, ⟨.paren _,
          .group .paren (.punct '.' true (.punct '.' false .nil)) .nil⟩], ?_,
        .wildcard (is_mk _ _) (is_mk _ _) (.inl rfl)⟩
      exact .cons (t := .ident name .nil) (.ident h) (lexes_one (.paren _))
    | pattern p =>
      obtain ⟨h1, h2, h3⟩ := h
      refine ⟨trivial, [⟨.ident name, .ident name .nil⟩, ⟨.paren (unprint p), .group .paren (unprint p) .nil⟩],
        ?_, ?_⟩
      · exact .cons (t := .ident name .nil) (.ident h1) (lexes_one (.paren _))
      · have := NodeSyntax.pattern (tx := tx) (a := ⟨.ident name, .ident name .nil⟩) (name := name)
          (b := ⟨.paren (unprint p), .group .paren (unprint p) .nil⟩) (inner := unprint p) (is_mk _ _) (is_mk _ _) h3
        rwa [h2] at this

theorem nodes_print {ns : List ANode} (h : ∀ n ∈ ns, PrintableNode tx unprint n) :
    JointOk (cat (ns.map (nodeTokens unprint))) ∧
      ∃ ss, Lexes tx (cat (ns.map (nodeTokens unprint))) ss ∧ NodesSyntax tx ss ns := by
  induction ns with
  | nil => exact ⟨trivial, [], .nil, .nil⟩
  | cons n ns ih =>
    obtain ⟨h1, ss, h2, h3⟩ := node_print (h n (by simp))
    obtain ⟨h4, ss', h5, h6⟩ := ih fun n hn => h n (by simp [hn])
    exact ⟨joint_append h1 h4, _, lexes_append h2 h5, .cons h3 h6⟩

theorem rule_print {a : Alternative} (h : PrintableRule tx unprint a) :
    JointOk (ruleTokens unprint a) ∧ ∃ ss, Lexes tx (ruleTokens unprint a) ss ∧ RuleSyntax tx ss a := by
  obtain ⟨ns, block⟩ := a
  obtain ⟨h1, ss, h2, h3⟩ := nodes_print h.nodes
  cases block with
  | none =>
    refine ⟨joint_append h1 trivial, ss, ?_, .bare h3 h.nonempty h.alone⟩
    simpa [ruleTokens] using lexes_append h2 (.nil (tx := tx))
  | some b =>
    obtain ⟨d, inner⟩ := b
    have := h.block d inner rfl
    subst this
    exact ⟨joint_append h1 trivial, ss ++ [⟨.group .brace inner, _⟩], lexes_append h2 (lexes_one (.brace inner)),
      .block h3 h.nonempty h.alone (is_mk _ _)⟩

theorem rules_print {as : List Alternative} (h : ∀ a ∈ as, PrintableRule tx unprint a) (hne : as ≠ []) :
    JointOk (rulesTokens unprint as) ∧
      ∃ ss, Lexes tx (rulesTokens unprint as) ss ∧ RulesSyntax tx ss as := by
  induction as with
  | nil => exact absurd rfl hne
  | cons a as ih =>
    obtain ⟨h1, ss, h2, h3⟩ := rule_print (h a (by simp))
    cases as with
    | nil => exact ⟨h1, ss, h2, .one h3⟩
    | cons b as =>
      obtain ⟨h4, ss', h5, h6⟩ := ih (fun a ha => h a (List.mem_cons_of_mem _ ha)) (by simp)
      refine ⟨joint_append h1 (joint_append (op_joint _) (joint_append h4 trivial)), _,
        lexes_append h2 (lexes_append (op_lexes .pipe) (lexes_append h5 .nil)), ?_⟩
      have := RulesSyntax.cons h3 (p := ⟨.op .pipe, opTokens .pipe⟩) (is_mk _ _) h6
      simpa using this

theorem declaration_print {d : Declaration} (h : PrintableDeclaration tx unprint d) :
    JointOk (declarationTokens unprint d) ∧
      ∃ ss, Lexes tx (declarationTokens unprint d) ss ∧ DeclarationSyntax tx ss d := by
  obtain ⟨label, ty, as⟩ := d
  obtain ⟨hj, rs, hl, hr⟩ := rules_print h.rules h.nonempty
  have hty : ∃ ts, JointOk (match ty with | none => .nil | some ty => (opTokens .colon).append ty) ∧
      Lexes tx (match ty with | none => .nil | some ty => (opTokens .colon).append ty) ts ∧
      ReturnTypeSyntax ts ty := by
    cases ty with
    | none => exact ⟨[], trivial, .nil, .none⟩
    | some ty =>
      obtain ⟨h1, ss, h2, h3⟩ := h.type ty rfl
      exact ⟨_ :: ss, joint_append (op_joint _) h1, lexes_append (op_lexes .colon) h2, .some (is_mk _ _) h3⟩
  obtain ⟨ts, h1, h2, h3⟩ := hty
  refine ⟨?_, ⟨.op .beginProd, opTokens .beginProd⟩ :: ⟨.ident label, .ident label .nil⟩ ::
    ⟨.op .endProd, opTokens .endProd⟩ :: (ts ++ ⟨.op .arrow, opTokens .arrow⟩ ::
      (rs ++ [⟨.op .semicolon, opTokens .semicolon⟩])), ?_, .mk (is_mk _ _) (is_mk _ _) (is_mk _ _) h3 (is_mk _ _) hr (is_mk _ _)⟩
  · exact joint_append (op_joint _) (joint_append trivial (joint_append (op_joint _) (joint_append h1
      (joint_append (op_joint _) (joint_append hj (joint_append (op_joint _) trivial))))))
  · have := lexes_append (op_lexes (tx := tx) .beginProd) (lexes_append (lexes_one (.ident h.label))
      (lexes_append (op_lexes .endProd) (lexes_append h2 (lexes_append (op_lexes .arrow)
        (lexes_append hl (lexes_append (op_lexes .semicolon) .nil))))))
    simpa [declarationTokens, cat] using this

theorem declarations_print {ds : List Declaration} (h : ∀ d ∈ ds, PrintableDeclaration tx unprint d) :
    JointOk (cat (ds.map (declarationTokens unprint))) ∧
      ∃ ss, Lexes tx (cat (ds.map (declarationTokens unprint))) ss ∧ DeclarationsSyntax tx ss ds := by
  induction ds with
  | nil => exact ⟨trivial, [], .nil, .nil⟩
  | cons d ds ih =>
    obtain ⟨h1, ss, h2, h3⟩ := declaration_print (h d (by simp))
    obtain ⟨h4, ss', h5, h6⟩ := ih fun d hd => h d (by simp [hd])
    exact ⟨joint_append h1 h4, _, lexes_append h2 h5, .cons h3 h6⟩

theorem typeOption_print {keyword : String} (hk : Identifier tx keyword) {ty : TokenStream}
    (h : PrintableType tx ty) : JointOk (typeOptionTokens keyword ty) ∧
      ∃ ss, Lexes tx (typeOptionTokens keyword ty) ss ∧ TypeOptionSyntax keyword ss ty := by
  obtain ⟨h1, ss, h2, h3⟩ := h
  refine ⟨joint_append trivial (joint_append (op_joint _) (joint_append h1 (joint_append (op_joint _) trivial))),
    ⟨.ident keyword, .ident keyword .nil⟩ :: ⟨.op .colon, opTokens .colon⟩ ::
      (ss ++ [⟨.op .semicolon, opTokens .semicolon⟩]), ?_, .mk (is_mk _ _) (is_mk _ _) h3 (is_mk _ _)⟩
  have := lexes_append (lexes_one (.ident hk)) (lexes_append (op_lexes .colon) (lexes_append h2
    (lexes_append (op_lexes .semicolon) .nil)))
  simpa [typeOptionTokens, cat] using this

/-- The printed form of a file is a text of that file. -/
theorem file_print {f : GrammarFile} (h : PrintableFile tx unprint f) :
    JointOk (fileTokens unprint f) ∧
      ∃ ss, Lexes tx (fileTokens unprint f) ss ∧ FileSyntax tx ss f := by
  obtain ⟨hd, ds, hdl, hds⟩ := declarations_print h.declarations
  have ht : ∃ ts, JointOk (match f.terminal with
        | .raw ty => typeOptionTokens "terminal" ty
        | .enum ty => typeOptionTokens "enum_terminal" ty) ∧
      Lexes tx (match f.terminal with
        | .raw ty => typeOptionTokens "terminal" ty
        | .enum ty => typeOptionTokens "enum_terminal" ty) ts ∧ TerminalSyntax ts f.terminal := by
    cases e : f.terminal with
    | raw ty =>
      obtain ⟨h1, ss, h2, h3⟩ := typeOption_print h.keywords.2.1 (h.terminal ty (.inl e))
      exact ⟨ss, h1, h2, .raw h3⟩
    | enum ty =>
      obtain ⟨h1, ss, h2, h3⟩ := typeOption_print h.keywords.2.2.1 (h.terminal ty (.inr e))
      exact ⟨ss, h1, h2, .enum h3⟩
  have he : ∃ es, JointOk (match f.error with
        | none => .nil
        | some ty => typeOptionTokens "error_type" ty) ∧
      Lexes tx (match f.error with
        | none => .nil
        | some ty => typeOptionTokens "error_type" ty) es ∧ ErrorSyntax es f.error := by
    cases e : f.error with
    | none => exact ⟨[], trivial, .nil, .none⟩
    | some ty =>
      obtain ⟨h1, ss, h2, h3⟩ := typeOption_print h.keywords.2.2.2 (h.error ty e)
      exact ⟨ss, h1, h2, .some h3⟩
  obtain ⟨ts, ht1, ht2, ht3⟩ := ht
  obtain ⟨es, he1, he2, he3⟩ := he
  refine ⟨?_, [⟨.ident "name", .ident "name" .nil⟩, ⟨.op .colon, opTokens .colon⟩,
      ⟨.ident f.name, .ident f.name .nil⟩, ⟨.op .semicolon, opTokens .semicolon⟩] ++ (ts ++ (es ++ ds)), ?_,
    .mk (.mk (is_mk _ _) (is_mk _ _) (is_mk _ _) (is_mk _ _)) ht3 he3 hds⟩
  · exact joint_append trivial (joint_append (op_joint _) (joint_append trivial (joint_append (op_joint _)
      (joint_append ht1 (joint_append he1 (joint_append hd trivial))))))
  · have := lexes_append (lexes_one (.ident h.keywords.1)) (lexes_append (op_lexes .colon)
      (lexes_append (lexes_one (.ident h.name)) (lexes_append (op_lexes .semicolon) (lexes_append ht2
        (lexes_append he2 (lexes_append hdl .nil))))))
    simpa [fileTokens, cat] using this

/-- **C37.** Reading the printed form of a file yields the file: if it is accepted, the result is what the
file says; and it is accepted whenever its types are consistent and its grammar is acceptable. -/
theorem round_trip {f : GrammarFile} (h : PrintableFile tx unprint f) (fuel : Nat) :
    (∀ gi, parseGrammar tx fuel (tokenize tx .empty (fileTokens unprint f)) = .ok gi → Reads gi f) ∧
    (ConsistentTypes tx f.declarations → ∀ ig, IndexedGrammar.build f.grammar = .ok ig →
      ∀ table, LRTable.build fuel ig = .ok table →
        ∃ gi, parseGrammar tx fuel (tokenize tx .empty (fileTokens unprint f)) = .ok gi ∧ Reads gi f) := by
  obtain ⟨hj, ss, hl, hf⟩ := file_print h
  constructor
  · intro gi hg
    obtain ⟨ss', f', hl', hf', -, hr, -⟩ := accepted_is_file hj hg
    have e1 := tokenize_complete hl
    rw [tokenize_complete hl'] at e1
    have := items_injective e1
    subst this
    rw [unambiguous hf hf']
    exact hr
  · intro hc ig hi table ht
    obtain ⟨gi, h1, h2, -⟩ := file_is_accepted hl hf hc hi ht
    exact ⟨gi, h1, h2⟩

end C37
end Verif
