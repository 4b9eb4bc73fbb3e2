import Verif.Spec.Patterns
import Verif.Proof.RustItem
import Verif.Props.Rust

/-!
# Patterns in generated code
-/

set_option linter.unusedSectionVars false
set_option linter.unusedSimpArgs false
set_option autoImplicit false

namespace Verif

/-- The matchers of a state. -/
def StateCode.matchers (code : StateCode) : List Matcher :=
  code.overlap ++ code.shifts.map ShiftArm.matcher ++ code.reduces.flatMap ReduceArm.matchers ++
    code.accept.toList.map AcceptArm.matcher

/-- The variables of a matcher. -/
def Matcher.binds (binds : String → List String) : Matcher → List String
  | .token (.data _ text) => binds text
  | _ => []

namespace RustSyntax
open Rust Emit

variable {alts : String → List String} {binds : String → List String} {retok : String → TokenStream}
  {gi : GrammarInfo} {prog : Program}

theorem splice_append (a b : List RTok) : splice alts (a ++ b) = splice alts a ++ splice alts b := by
  induction a with
  | nil => rfl
  | cons x a ih => simp [splice, ih]

theorem splice_eq {t : List RTok} (h : ∀ text, .pattern text ∈ t → alts text = [text]) : splice alts t = t := by
  induction t with
  | nil => rfl
  | cons x t ih =>
    have ih := ih fun text ht => h text (by simp [ht])
    cases x with
    | pattern text => simp [splice, ih, h text (by simp), joined]
    | _ => simp [splice, ih]

/-! ### Where the tokens of user patterns come from -/

/-- The user's patterns in a pattern. -/
def texts : RPat → List String
  | .con _ p => texts p
  | .ref p => texts p
  | .named _ p => texts p
  | .user text => [text]
  | .or p q => texts p ++ texts q
  | _ => []

theorem text_of_con {k : Con} {text : String} : .pattern text ∉ k.code.tokens := by
  cases k <;> simp [Con.code, Code.tokens, Emit.value]

theorem text_of_atom {a : Atom} {text : String} : .pattern text ∉ a.code.tokens := by
  cases a <;> simp [Atom.code, Code.tokens, Emit.value]

theorem text_of_pattern {p : RPat} {text : String} (h : .pattern text ∈ (p.code retok).tokens) : text ∈ texts p := by
  induction p with
  | con k p ih =>
    simp only [RPat.code, cat, Code.tokens, List.mem_append, List.mem_cons, reduceCtorEq, List.not_mem_nil,
      or_false, false_or, text_of_con] at h
    exact ih h
  | rest k => simp [RPat.code, cat, Code.tokens, text_of_con] at h
  | ref p ih =>
    simp [RPat.code, cat, Code.tokens] at h
    exact ih h
  | named x p ih =>
    simp [RPat.code, cat, Code.tokens] at h
    exact ih h
  | user t => simpa [RPat.code, Code.tokens, texts] using h
  | or p q ihp ihq =>
    simp [RPat.code, cat, Code.tokens] at h
    simp only [texts, List.mem_append]
    exact h.imp ihp ihq
  | atom a => exact absurd h text_of_atom
  | wild => simp [RPat.code, Code.tokens] at h
  | var x => simp [RPat.code, Code.tokens] at h

variable {ety : Code}

mutual

theorem text_of_expr (hety : ∀ text, .pattern text ∉ ety.tokens) {text : String} : (e : Expr) →
    .pattern text ∈ (e.code retok ety).tokens → ∃ p ∈ e.patterns, text ∈ texts p
  | .var _, h => by simp [Expr.code, Code.tokens, Emit.value] at h
  | .atom a, h => absurd h text_of_atom
  | .con k e, h => by
    simp [Expr.code, cat, Code.tokens, text_of_con] at h
    simpa [Expr.patterns] using text_of_expr hety e h
  | .call0 _ e, h => by
    simp [Expr.code, cat, Code.tokens] at h
    simpa [Expr.patterns] using text_of_expr hety e h
  | .push a b, h => by
    simp [Expr.code, cat, Code.tokens] at h
    simp only [Expr.patterns, List.mem_append, or_and_right, exists_or]
    exact h.imp (text_of_expr hety a) (text_of_expr hety b)
  | .newState a b, h => by
    simp [Expr.code, cat, Code.tokens] at h
    simp only [Expr.patterns, List.mem_append, or_and_right, exists_or]
    exact h.imp (text_of_expr hety a) (text_of_expr hety b)
  | .call _ e, h => by
    simp [Expr.code, cat, Code.tokens, Emit.value] at h
    simpa [Expr.patterns] using text_of_expr hety e h
  | .map a _ b, h => by
    simp [Expr.code, cat, Code.tokens] at h
    simp only [Expr.patterns, List.mem_append, or_and_right, exists_or]
    exact h.imp (text_of_expr hety a) (text_of_expr hety b)
  | .parseError e, h => by
    simp [Expr.code, cat, Code.tokens] at h
    simpa [Expr.patterns] using text_of_expr hety e h
  | .overlapping e, h => by
    simp [Expr.code, cat, Code.tokens, Emit.value] at h
    simpa [Expr.patterns] using text_of_expr hety e h
  | .closure _ _, h => by simp [Expr.code, cat, Code.tokens, Emit.value, hety] at h
  | .convert _ e, h => by
    simp [Expr.code, cat, Code.tokens] at h
    simpa [Expr.patterns] using text_of_expr hety e h
  | .block e, h => by
    simp [Expr.code, cat, Code.tokens] at h
    simpa [Expr.patterns] using text_of_expr hety e h
  | .question e, h => by
    simp [Expr.code, cat, Code.tokens] at h
    simpa [Expr.patterns] using text_of_expr hety e h
  | .ret e, h => by
    simp [Expr.code, cat, Code.tokens] at h
    simpa [Expr.patterns] using text_of_expr hety e h
  | .letIn isMut _ a b, h => by
    have hm : RTok.pattern text ∉ (if isMut then rs!"let mut" else rs!"let") := by cases isMut <;> simp
    simp [Expr.code, cat, Code.tokens, hm] at h
    simp only [Expr.patterns, List.mem_append, or_and_right, exists_or]
    exact h.imp (text_of_expr hety a) (text_of_expr hety b)
  | .seq a b, h => by
    simp [Expr.code, cat, Code.tokens] at h
    simp only [Expr.patterns, List.mem_append, or_and_right, exists_or]
    exact h.imp (text_of_expr hety a) (text_of_expr hety b)
  | .stmt a b, h => by
    simp [Expr.code, cat, Code.tokens] at h
    simp only [Expr.patterns, List.mem_append, or_and_right, exists_or]
    exact h.imp (text_of_expr hety a) (text_of_expr hety b)
  | .nothing, h => by simp [Expr.code, Code.tokens] at h
  | .cases a b, h => by
    simp [Expr.code, cat, Code.tokens] at h
    simp only [Expr.patterns, List.mem_append, or_and_right, exists_or]
    exact h.imp (text_of_expr hety a) (text_of_arms hety b)
  | .unreachable, h => by simp [Expr.code, Code.tokens] at h
  | .count a p, h => by
    simp [Expr.code, cat, Code.tokens, Emit.value] at h
    simp only [Expr.patterns, List.mem_append, or_and_right, exists_or]
    refine h.imp (text_of_expr hety a) fun h => ⟨p, by simp, text_of_pattern h⟩
  | .add a b, h => by
    simp [Expr.code, cat, Code.tokens] at h
    simp only [Expr.patterns, List.mem_append, or_and_right, exists_or]
    exact h.imp (text_of_expr hety a) (text_of_expr hety b)
  | .ifMany a b, h => by
    simp [Expr.code, cat, Code.tokens] at h
    simp only [Expr.patterns, List.mem_append, or_and_right, exists_or]
    exact h.imp (text_of_expr hety a) (text_of_expr hety b)
  | .debug e, h => by
    simp [Expr.code, cat, Code.tokens] at h
    simpa [Expr.patterns] using text_of_expr hety e h
  | .loop e, h => by
    simp [Expr.code, cat, Code.tokens] at h
    simpa [Expr.patterns] using text_of_expr hety e h

theorem text_of_arms (hety : ∀ text, .pattern text ∉ ety.tokens) {text : String} : (a : Arms) →
    .pattern text ∈ (a.code retok ety).tokens → ∃ p ∈ a.patterns, text ∈ texts p
  | .nil, h => by simp [Arms.code, Code.tokens] at h
  | .cons p style e rest, h => by
    have h1 : RTok.pattern text ∉ (if style = .block then rs!"=> {" else rs!"=>") := by split <;> simp
    simp only [Arms.code, cat, Code.tokens, List.mem_append, h1, false_or, or_false, List.not_mem_nil] at h
    rcases h with h | h | h
    · exact ⟨p, by simp [Arms.patterns], text_of_pattern h⟩
    · obtain ⟨q, h3, h4⟩ := text_of_expr hety e h
      exact ⟨q, by simp [Arms.patterns, h3], h4⟩
    · have h := h.resolve_left (by cases style <;> simp)
      obtain ⟨q, h3, h4⟩ := text_of_arms hety rest h
      exact ⟨q, by simp [Arms.patterns, h3], h4⟩

end

/-! ### The patterns of generated code -/

theorem patterns_ofList {l : List (RPat × Style × Expr)} {rest : Arms} {p : RPat}
    (h : p ∈ (Arms.ofList l rest).patterns) :
    (∃ a ∈ l, p = a.1 ∨ p ∈ a.2.2.patterns) ∨ p ∈ rest.patterns := by
  induction l with
  | nil => exact .inr h
  | cons a l ih =>
    have h' : p ∈ a.1 :: (a.2.2.patterns ++ (Arms.ofList l rest).patterns) := h
    rw [List.mem_cons, List.mem_append] at h'
    rcases h' with h | h | h
    · exact .inl ⟨a, by simp, .inl h⟩
    · exact .inl ⟨a, by simp, .inr h⟩
    · rcases ih h with ⟨b, h1, h2⟩ | h
      · exact .inl ⟨b, by simp [h1], h2⟩
      · exact .inr h

/-- Patterns without user code and without alternatives that could disagree. -/
def Safe (p : RPat) : Prop := texts p = [] ∧ ∀ binds, p.Agree binds

theorem agree_anyOf {l : List RPat} :
    (anyOf l).Agree binds ↔ (∀ p ∈ l, p.Agree binds) ∧
      ∀ p ∈ l, ∀ q ∈ l, ∀ x, x ∈ p.bound binds ↔ x ∈ q.bound binds := by
  induction l with
  | nil => simp [anyOf, RPat.Agree]
  | cons a l ih =>
    cases l with
    | nil => simp [anyOf, RPat.Agree]
    | cons b l =>
      have hb : ∀ x, x ∈ (anyOf (b :: l)).bound binds ↔ x ∈ b.bound binds := by
        intro x
        cases l <;> rfl
      rw [anyOf, RPat.Agree, ih]
      · simp only [hb]
        constructor
        · rintro ⟨h1, ⟨h2, h3⟩, h4⟩
          refine ⟨fun p hp => ?_, ?_⟩
          · rcases List.mem_cons.mp hp with rfl | hp
            · exact h1
            · exact h2 p hp
          have : ∀ p ∈ a :: b :: l, ∀ x, x ∈ p.bound binds ↔ x ∈ b.bound binds := by
            intro p hp x
            rcases List.mem_cons.mp hp with rfl | hp
            · exact h4 x
            · exact h3 p hp b (by simp) x
          exact fun p hp q hq x => (this p hp x).trans (this q hq x).symm
        · rintro ⟨h1, h2⟩
          exact ⟨h1 a (by simp), ⟨fun p hp => h1 p (by simp [hp]), fun p hp q hq => h2 p (by simp [hp]) q (by simp [hq])⟩,
            h2 a (by simp) b (by simp)⟩
      · simp

theorem texts_anyOf {l : List RPat} {text : String} (h : text ∈ texts (anyOf l)) : ∃ p ∈ l, text ∈ texts p := by
  induction l with
  | nil => simp [anyOf, texts] at h
  | cons a l ih =>
    cases l with
    | nil => exact ⟨a, by simp, h⟩
    | cons b l =>
      simp only [anyOf, texts, List.mem_append] at h
      rcases h with h | h
      · exact ⟨a, by simp, h⟩
      · obtain ⟨p, h1, h2⟩ := ih h
        exact ⟨p, by simp [h1], h2⟩

theorem agree_matcher {named : Bool} {m : Matcher} : (matcher gi named m).Agree binds := by
  cases m with
  | eos => trivial
  | token p => cases p <;> cases named <;> trivial

theorem bound_matcher {m : Matcher} : (matcher gi false m).bound binds = m.binds binds := by
  cases m with
  | eos => rfl
  | token p => cases p <;> rfl

theorem texts_matcher {named : Bool} {m : Matcher} {text : String} (h : text ∈ texts (matcher gi named m)) :
    ∃ v, m = .token (.data v text) := by
  cases m with
  | eos => simp [matcher, texts] at h
  | token p =>
    cases p <;> cases named <;> simp [matcher, Emit.pattern, texts] at h
    all_goals (subst h; exact ⟨_, rfl⟩)

theorem safe_constructor {c : Ctor} : (constructor c).patterns = [] := by
  cases c <;> simp [constructor, Expr.patterns]

theorem safe_goto {ctor : Ctor} {rest : Expr} (hr : ∀ p ∈ rest.patterns, Safe p) {g : GotoCode} :
    ∀ p ∈ (gotoCode gi ctor rest g).patterns, Safe p := by
  intro p hp
  cases g with
  | direct next =>
    simp only [gotoCode, Expr.patterns, state, safe_constructor, List.append_nil, List.nil_append] at hp
    exact hr p hp
  | select arms =>
    simp only [gotoCode, Expr.patterns, state, safe_constructor, List.append_nil, List.nil_append, List.mem_append] at hp
    rcases hp with hp | hp
    · rcases patterns_ofList hp with ⟨a, ha, h⟩ | h
      · obtain ⟨arm, -, rfl⟩ := List.mem_map.mp ha
        rcases h with rfl | h
        · have hs : ∀ p ∈ arm.2.map (stateMatcher gi), (∀ binds, p.bound binds = []) ∧ texts p = [] ∧
              ∀ binds, p.Agree binds := by
            intro p hp
            obtain ⟨s, -, rfl⟩ := List.mem_map.mp hp
            exact ⟨fun _ => rfl, rfl, fun _ => trivial⟩
          refine ⟨?_, fun binds => agree_anyOf.mpr ⟨fun p hp => (hs p hp).2.2 binds, fun p hp q hq x => by
            rw [(hs p hp).1, (hs q hq).1]⟩⟩
          rw [List.eq_nil_iff_forall_not_mem]
          intro text ht
          obtain ⟨p, h1, h2⟩ := texts_anyOf ht
          rw [(hs p h1).2.1] at h2
          cases h2
        · simp [Expr.patterns, state] at h
      · simp only [unreachableArm, Arms.patterns, Expr.patterns, List.append_nil, List.mem_singleton] at h
        subst h
        exact ⟨rfl, fun _ => trivial⟩
    · exact hr p hp

theorem safe_pops {body : Expr} (hb : ∀ p ∈ body.patterns, Safe p) {l : List PopStep} :
    ∀ p ∈ (pops gi body l).patterns, Safe p := by
  induction l with
  | nil => exact hb
  | cons s l ih =>
    intro p hp
    simp only [pops, Expr.patterns, state, List.nil_append, List.mem_append] at hp
    rcases hp with hp | hp
    · rcases patterns_ofList hp with ⟨a, ha, h⟩ | h
      · obtain ⟨st, -, rfl⟩ := List.mem_map.mp ha
        rcases h with rfl | h
        · unfold popArm
          cases s.variant <;> exact ⟨rfl, fun _ => trivial⟩
        · simp [popArm, Expr.patterns] at h
      · simp only [unreachableArm, Arms.patterns, Expr.patterns, List.append_nil, List.mem_singleton] at h
        subst h
        exact ⟨rfl, fun _ => trivial⟩
    · exact ih p hp

theorem patterns_sum {l : List Expr} {p : RPat} (h : p ∈ (sum l).patterns) : ∃ e ∈ l, p ∈ e.patterns := by
  have hf : ∀ (l : List Expr) (e : Expr), p ∈ (l.foldl Expr.add e).patterns →
      p ∈ e.patterns ∨ ∃ e ∈ l, p ∈ e.patterns := by
    intro l
    induction l with
    | nil => exact fun e h => .inl h
    | cons a l ih =>
      intro e h
      rcases ih _ h with h | ⟨b, h1, h2⟩
      · rw [Expr.patterns, List.mem_append] at h
        rcases h with h | h
        · exact .inl h
        · exact .inr ⟨a, by simp, h⟩
      · exact .inr ⟨b, by simp [h1], h2⟩
  cases l with
  | nil => simp [sum, Expr.patterns] at h
  | cons a l =>
    rcases hf l a h with h | ⟨b, h1, h2⟩
    · exact ⟨a, by simp, h⟩
    · exact ⟨b, by simp [h1], h2⟩

/-- The patterns in the function of a state. -/
theorem patterns_actions {code : StateCode} {p : RPat} (h : p ∈ (actions gi code).patterns) :
    Safe p ∨ (∃ named, ∃ m ∈ code.matchers, p = matcher gi named m) ∨
      ∃ arm ∈ code.reduces, p = anyOf (arm.matchers.map (matcher gi false)) := by
  have hend : ∀ p ∈ (Arms.ofList (code.reduces.map (reduceArm gi))
      (.ofList (code.accept.toList.map (Emit.acceptArm gi)) returnErr)).patterns,
      Safe p ∨ (∃ named, ∃ m ∈ code.matchers, p = matcher gi named m) ∨
        ∃ arm ∈ code.reduces, p = anyOf (arm.matchers.map (matcher gi false)) := by
    intro p hp
    rcases patterns_ofList hp with ⟨a, ha, h⟩ | h
    · obtain ⟨arm, hr, rfl⟩ := List.mem_map.mp ha
      rcases h with rfl | h
      · exact .inr (.inr ⟨arm, hr, rfl⟩)
      · exact .inl (safe_pops (safe_goto (by simp [Expr.patterns])) p h)
    · rcases patterns_ofList h with ⟨a, ha, h⟩ | h
      · obtain ⟨arm, hr, rfl⟩ := List.mem_map.mp ha
        rcases h with rfl | h
        · refine .inr (.inl ⟨false, arm.matcher, ?_, rfl⟩)
          unfold StateCode.matchers
          exact List.mem_append_right _ (List.mem_map_of_mem hr)
        · refine .inl (safe_pops ?_ p h)
          simp [Expr.patterns, state, safe_constructor]
      · simp only [returnErr, Arms.patterns, Expr.patterns, List.append_nil, List.nil_append, List.mem_cons,
          List.not_mem_nil, or_false] at h
        rcases h with rfl | rfl <;> exact .inl ⟨rfl, fun _ => trivial⟩
  have hmatch : ∀ p ∈ (match code.shifts with
      | [] => Expr.cases (.var peekedVal) (Arms.ofList (code.reduces.map (reduceArm gi))
        (.ofList (code.accept.toList.map (Emit.acceptArm gi)) returnErr))
      | shifts => .letIn false "next_state" (.cases (.var peekedVal) (.ofList (shifts.map (shiftArm gi))
          (Arms.ofList (code.reduces.map (reduceArm gi)) (.ofList (code.accept.toList.map (Emit.acceptArm gi)) returnErr))))
          (.seq (.call0 .advance (.call0 .streamMut state)) (.seq (.push state (.var "next_state"))
            (.con .ok (.atom .continue))))).patterns,
      Safe p ∨ (∃ named, ∃ m ∈ code.matchers, p = matcher gi named m) ∨
        ∃ arm ∈ code.reduces, p = anyOf (arm.matchers.map (matcher gi false)) := by
    intro p hp
    split at hp
    · simp only [Expr.patterns, List.nil_append] at hp
      exact hend p hp
    · simp only [Expr.patterns, List.nil_append, List.append_nil, state] at hp
      rcases patterns_ofList hp with ⟨a, ha, h⟩ | h
      · obtain ⟨arm, hr, rfl⟩ := List.mem_map.mp ha
        rcases h with rfl | h
        · refine .inr (.inl ⟨true, arm.matcher, ?_, rfl⟩)
          unfold StateCode.matchers
          exact List.mem_append_left _ (List.mem_append_left _ (List.mem_append_right _ (List.mem_map_of_mem hr)))
        · have : (tokenExpr gi arm.value).patterns = [] := by cases arm.value <;> rfl
          simp [shiftArm, Expr.patterns, this] at h
      · exact hend p h
  unfold actions at h
  simp only [Expr.patterns, List.mem_append] at h
  rcases h with h | h
  · simp [peekNext, Expr.patterns, Arms.patterns, state] at h
    rcases h with rfl | rfl <;> exact .inl ⟨rfl, fun _ => trivial⟩
  · unfold overlapCheck at h
    split at h
    · exact hmatch p h
    · rename_i ms hne
      simp only [Expr.patterns, List.mem_append, List.append_nil, List.nil_append] at h
      rcases h with h | h
      · obtain ⟨e, h1, h2⟩ := patterns_sum h
        obtain ⟨m, hm, rfl⟩ := List.mem_map.mp h1
        simp only [Expr.patterns, List.nil_append, List.mem_singleton] at h2
        refine .inr (.inl ⟨false, m, ?_, h2⟩)
        unfold StateCode.matchers
        simp [hm]
      · exact hmatch p h

theorem safe_parseLoop {n : Nat} : ∀ p ∈ (parseLoop gi n).patterns, Safe p := by
  intro p hp
  simp only [parseLoop, Expr.patterns, List.nil_append, List.mem_append] at hp
  rcases hp with hp | hp
  · rcases patterns_ofList hp with ⟨a, ha, h⟩ | h
    · obtain ⟨s, -, rfl⟩ := List.mem_map.mp ha
      rcases h with rfl | h
      · exact ⟨rfl, fun _ => trivial⟩
      · simp [Expr.patterns] at h
    · simp [Arms.patterns] at h
  · simp only [Arms.patterns, Expr.patterns, List.nil_append, List.append_nil, List.mem_cons, List.not_mem_nil,
      or_false] at hp
    rcases hp with rfl | rfl <;> exact ⟨rfl, fun _ => trivial⟩

theorem patterns_of_reduce {code : StateCode} {arm : ReduceArm} (ha : arm ∈ code.reduces) :
    anyOf (arm.matchers.map (matcher gi false)) ∈ (actions gi code).patterns := by
  have hlist : ∀ (l : List (RPat × Style × Expr)) (rest : Arms) (a : RPat × Style × Expr), a ∈ l →
      a.1 ∈ (Arms.ofList l rest).patterns := by
    intro l rest a ha
    induction l with
    | nil => cases ha
    | cons b l ih =>
      show a.1 ∈ b.1 :: (b.2.2.patterns ++ (Arms.ofList l rest).patterns)
      rcases List.mem_cons.mp ha with rfl | ha
      · simp
      · simp [ih ha]
  have hrest : ∀ (l : List (RPat × Style × Expr)) (rest : Arms) (p : RPat), p ∈ rest.patterns →
      p ∈ (Arms.ofList l rest).patterns := by
    intro l rest p hp
    induction l with
    | nil => exact hp
    | cons b l ih =>
      show p ∈ b.1 :: (b.2.2.patterns ++ (Arms.ofList l rest).patterns)
      simp [ih]
  have hm := hlist (code.reduces.map (reduceArm gi)) (.ofList (code.accept.toList.map (Emit.acceptArm gi)) returnErr) _
    (List.mem_map_of_mem (f := reduceArm gi) ha)
  have hover : ∀ (rest : Expr) (ms : List Matcher) (p : RPat), p ∈ rest.patterns →
      p ∈ (overlapCheck gi rest ms).patterns := by
    intro rest ms p hp
    unfold overlapCheck
    split
    · exact hp
    · simp [Expr.patterns, hp]
  unfold actions
  rw [Expr.patterns, List.mem_append]
  refine .inr (hover _ _ _ ?_)
  split
  · simp only [Expr.patterns, List.nil_append]
    exact hm
  · simp only [Expr.patterns, List.nil_append, List.mem_append]
    exact .inl (hrest _ _ _ hm)

/-! ### The tokens of the whole parser -/

theorem text_of_typeOrUnit {ty : Option TokenStream} {text : String} : .pattern text ∉ (typeOrUnit ty).tokens := by
  cases ty <;> simp [typeOrUnit, Code.tokens]

theorem text_of_errorType {text : String} : .pattern text ∉ (errorType gi).tokens := by
  unfold errorType
  cases gi.errorType <;> simp [Code.tokens]

theorem text_of_cat {l : List Code} {x : RTok} (h : x ∈ (cat l).tokens) : ∃ c ∈ l, x ∈ c.tokens := by
  induction l with
  | nil => simp [cat, Code.tokens] at h
  | cons c l ih =>
    simp only [cat, Code.tokens, List.mem_append] at h
    rcases h with h | h
    · exact ⟨c, by simp, h⟩
    · obtain ⟨d, h1, h2⟩ := ih h
      exact ⟨d, by simp [h1], h2⟩

theorem texts_of_state {code : StateCode} {text : String}
    (h : .pattern text ∈ ((actions gi code).code retok (errorType gi)).tokens) :
    ∃ v, .token (.data v text) ∈ code.matchers := by
  obtain ⟨p, hp, ht⟩ := text_of_expr (fun _ => text_of_errorType) _ h
  have hm : ∀ (named : Bool) (m : Matcher), m ∈ code.matchers → text ∈ texts (matcher gi named m) →
      ∃ v, .token (.data v text) ∈ code.matchers := by
    intro named m hm ht
    obtain ⟨v, rfl⟩ := texts_matcher ht
    exact ⟨v, hm⟩
  rcases patterns_actions hp with h | ⟨named, m, h1, rfl⟩ | ⟨arm, h1, rfl⟩
  · rw [h.1] at ht
    cases ht
  · exact hm _ _ h1 ht
  · obtain ⟨p, h2, h3⟩ := texts_anyOf ht
    obtain ⟨m, h4, rfl⟩ := List.mem_map.mp h2
    refine hm _ m ?_ h3
    unfold StateCode.matchers
    simp only [List.mem_append, List.mem_flatMap]
    exact .inl (.inr ⟨arm, h1, h4⟩)

theorem texts_of_parser {isPub : Bool} {text : String} (h : .pattern text ∈ (Emit.parser gi retok isPub prog).tokens) :
    ∃ code ∈ prog.states, ∃ v, .token (.data v text) ∈ code.matchers := by
  have hp : RTok.pattern text ∉ (if isPub then rs!"pub struct" else rs!"struct") := by cases isPub <;> simp
  have henum : RTok.pattern text ∉ (statesEnum gi prog.stateTypes).tokens := by
    intro h
    simp only [statesEnum, cat, Code.tokens, List.mem_append, List.mem_cons, reduceCtorEq, List.not_mem_nil,
      or_false, false_or] at h
    obtain ⟨c, hc, h⟩ := text_of_cat h
    obtain ⟨q, -, rfl⟩ := List.mem_map.mp hc
    simp [cat, Code.tokens, text_of_typeOrUnit] at h
  have hloop : RTok.pattern text ∉ ((parseLoop gi prog.states.length).code retok (errorType gi)).tokens := by
    intro h
    obtain ⟨p, hp, ht⟩ := text_of_expr (fun _ => text_of_errorType) _ h
    rw [(safe_parseLoop p hp).1] at ht
    cases ht
  have hf : .pattern text ∈ (cat (prog.states.zipIdx.map (function gi retok prog.resultType))).tokens := by
    unfold Emit.parser at h
    simp only [cat, Code.tokens, List.mem_append, List.mem_cons, reduceCtorEq, List.not_mem_nil, or_false, false_or,
      hp, henum, hloop, text_of_typeOrUnit, text_of_errorType] at h
    exact h
  obtain ⟨c, hc, h⟩ := text_of_cat hf
  obtain ⟨q, hq, rfl⟩ := List.mem_map.mp hc
  unfold function at h
  simp only [cat, Code.tokens, List.mem_append, List.mem_cons, reduceCtorEq, List.not_mem_nil, or_false, false_or,
    text_of_typeOrUnit, text_of_errorType] at h
  exact ⟨q.1, (List.mem_zipIdx hq).2.2 ▸ List.getElem_mem _, texts_of_state h⟩

end RustSyntax
end Verif
