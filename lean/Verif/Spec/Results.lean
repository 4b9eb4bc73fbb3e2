import Verif.Spec.Eval

/-!
# Specification: what the LR(1) parser of a grammar returns

The parser of Spec/Machine, with constructors that are run on reductions. No states, tables or numbers of symbols.
-/

namespace Verif.Spec

variable {T L A V E σ : Type}

/-- How a parse ends: with a value, with the error of a constructor, or at an unexpected token (`none`: at the end of
the input). -/
inductive End (A V E : Type) where
  | value (v : V)
  | failed (e : E)
  | unexpected (next : Option A)

/-- `Ends P first m tok apply w0 W r w z`: on input `W` the parser ends with `r` when `z` is left to read, and the side
effects of constructors have turned `w0` into `w`. -/
inductive Ends (P : List (Rule T L)) (first : List (Node T L) → AugTok T → Prop) (m : A → T → Prop) (tok : A → V)
    (apply : Nat → List V → σ → Except E V × σ) (w0 : σ) (W : List A) : End A V E → σ → List A → Prop
  | accept {c : Config T L A} {tr : List Nat} {vs : List V} {w w' : σ} {v : V} :
      Steps P first m (.start W) c tr → eval tok apply (Forest.ofTrees c.trees) w0 = (.ok vs, w) →
      Accepting P first m c → apply 0 vs w = (.ok v, w') → Ends P first m tok apply w0 W (.value v) w' c.input
  | acceptFail {c : Config T L A} {tr : List Nat} {vs : List V} {w w' : σ} {e : E} :
      Steps P first m (.start W) c tr → eval tok apply (Forest.ofTrees c.trees) w0 = (.ok vs, w) →
      Accepting P first m c → apply 0 vs w = (.error e, w') → Ends P first m tok apply w0 W (.failed e) w' c.input
  | reduceFail {c c' : Config T L A} {tr : List Nat} {i : Nat} {vs : List V} {w w' : σ} {e : E} :
      Steps P first m (.start W) c tr → eval tok apply (Forest.ofTrees c.trees) w0 = (.ok vs, w) →
      Step P first m c c' (some i) → eval tok apply (Forest.ofTrees c'.trees) w0 = (.error e, w') →
      Ends P first m tok apply w0 W (.failed e) w' c.input
  | stuck {c : Config T L A} {tr : List Nat} {vs : List V} {w : σ} :
      Steps P first m (.start W) c tr → eval tok apply (Forest.ofTrees c.trees) w0 = (.ok vs, w) →
      Stuck P first m c → Ends P first m tok apply w0 W (.unexpected c.input.head?) w c.input

/-- `BreaksOff P first m tok apply w0 W e r w z`: the input has the tokens `W` and then fails with `e`, so that neither
another token nor the end can be seen. The parser ends before it has read all of `W`, as it does on any input that begins
like this, or with `e` as soon as it has shifted the last token of `W`. -/
inductive BreaksOff (P : List (Rule T L)) (first : List (Node T L) → AugTok T → Prop) (m : A → T → Prop) (tok : A → V)
    (apply : Nat → List V → σ → Except E V × σ) (w0 : σ) (W : List A) (e : E) : End A V E → σ → List A → Prop
  | before {r : End A V E} {w : σ} {a : A} {z : List A} :
      Ends P first m tok apply w0 W r w (a :: z) → BreaksOff P first m tok apply w0 W e r w (a :: z)
  | nothing : W = [] → BreaksOff P first m tok apply w0 W e (.failed e) w0 []
  | shifted {c c' : Config T L A} {tr : List Nat} {vs : List V} {w : σ} :
      Steps P first m (.start W) c tr → Step P first m c c' none → c'.input = [] →
      eval tok apply (Forest.ofTrees c'.trees) w0 = (.ok vs, w) →
      BreaksOff P first m tok apply w0 W e (.failed e) w []

end Verif.Spec
