import Verif.Spec.Spelling
import Verif.Props.C32_C39_Grammar
/-! C124: which pattern strings are the same pattern. -/
namespace Verif
open Spec

theorem sortedSet_ext {l l' : List UInt8} (h : StrictlySorted l) (h' : StrictlySorted l') (he : ∀ c, c ∈ l ↔ c ∈ l') : l = l' :=
  sorted_eq h h' he

theorem set_same {cs cs' : Bytes} : bsetFromIter cs = bsetFromIter cs' ↔ ∀ c, c ∈ cs ↔ c ∈ cs' := by
  constructor
  · intro h c
    rw [← mem_bsetFromIter, h, mem_bsetFromIter]
  · intro h
    exact sortedSet_ext (bsetFromIter_sorted _) (bsetFromIter_sorted _) fun c => by rw [mem_bsetFromIter, mem_bsetFromIter, h]

theorem option_same {o o' : Option Nat} (h : ∀ n, o = some n ↔ o' = some n) : o = o' := by
  cases o with
  | none => cases o' with
    | none => rfl
    | some n => exact absurd ((h n).mpr rfl) (by simp)
  | some n => exact ((h n).mp rfl).symm

theorem tokens_greedy_open {n : Option Bytes} {es : List Elem} (h : startsLiteral es = false) :
    tokens (.greedy n :: es) = .parser (.greedy { name := n, endString := none }) :: tokens es := by
  cases es with
  | nil => rfl
  | cons e es => cases e with
    | literal => simp [startsLiteral, Elem.isLiteral] at h
    | int => rfl
    | set => rfl
    | greedy => rfl

theorem tokens_alike {es es' : List Elem} (h : Each SpelledAlike es es') : tokens es = tokens es' := by
  have step : ∀ (k : Nat) {es es' : List Elem}, es.length ≤ k → Each SpelledAlike es es' → tokens es = tokens es' := by
    intro k
    induction k with
    | zero => intro es es' hk h; cases h with
      | nil => rfl
      | cons => simp at hk
    | succ k ih =>
      intro es es' hk h
      cases h with
      | nil => rfl
      | cons a b as bs hab h =>
        simp at hk
        have hr := ih hk h
        cases hab with
        | literal raw => simp only [tokens, hr]
        | int os os' name h1 h2 => simp only [tokens, hr, intParser, option_same h1, option_same h2]
        | set cs cs' os os' name h0 h1 h2 => simp only [tokens, hr, setParser, option_same h1, option_same h2, set_same.mpr h0]
        | greedy name =>
          cases h with
          | nil => rfl
          | cons a b as bs hab h =>
            cases hab with
            | literal raw => simp only [tokens, ih (by simp at hk; omega) h]
            | int => rw [tokens_greedy_open rfl, tokens_greedy_open rfl, hr]
            | set => rw [tokens_greedy_open rfl, tokens_greedy_open rfl, hr]
            | greedy => exact (tokens_greedy_open rfl).trans ((congrArg _ hr).trans (tokens_greedy_open rfl).symm)
  exact step _ (Nat.le_refl _) h

theorem unescape_inj : ∀ (k : Nat) {r r' : Bytes}, r.length ≤ k → ¬ b!"%{" <:+: r → ¬ b!"%{" <:+: r' → unescape r = unescape r' → r = r' := by
  have tail : ∀ {c : UInt8} {u : Bytes}, ¬ b!"%{" <:+: c :: u → ¬ b!"%{" <:+: u := fun h h' => h (List.infix_cons h')
  have mixed : ∀ {u w : Bytes}, ¬ b!"%{" <:+: 37 :: u → ¬ unescape u = 123 :: unescape w := by
    intro u w h e
    rcases unescape_head e with ⟨v, rfl, _⟩ | ⟨v, hc, _⟩
    · exact h ⟨[], v, rfl⟩
    · simp at hc
  intro k
  induction k with
  | zero =>
    intro r r' hk _ _ h
    have : r = [] := List.eq_nil_of_length_eq_zero (by omega)
    subst this
    cases r' with
    | nil => rfl
    | cons c r' => exact absurd h.symm (unescape_ne (by simp))
  | succ k ih =>
    intro r r' hk h1 h2 h
    cases hr : unescape r with
    | nil =>
      have e1 : r = [] := Classical.byContradiction fun hn => unescape_ne hn hr
      have e2 : r' = [] := Classical.byContradiction fun hn => unescape_ne hn (h ▸ hr)
      rw [e1, e2]
    | cons c t =>
      have hr' := h ▸ hr
      rcases unescape_head hr with ⟨u, rfl, e1, _⟩ | ⟨u, rfl, rfl, e1⟩
      · rcases unescape_head hr' with ⟨u', rfl, e2, _⟩ | ⟨u', rfl, rfl, e2⟩
        · rw [ih (by simp at hk; omega) (tail h1) (tail h2) (e1.symm.trans e2)]
        · exact absurd (e1.symm.trans e2) (mixed h1)
      · rcases unescape_head hr' with ⟨u', rfl, e2, _⟩ | ⟨u', _, rfl, e2⟩
        · exact absurd (e2.symm.trans e1) (mixed h2)
        · have e3 := e1.symm.trans e2
          simp at e3
          rw [ih (by simp at hk; omega) (tail (tail (tail (tail h1)))) (tail (tail (tail (tail h2)))) e3]

/-- the literal texts are as they are in pattern strings -/
def ProperLits (es : List Elem) : Prop := ∀ raw, Elem.literal raw ∈ es → ¬ b!"%{" <:+: raw

theorem written_properLits {es : List Elem} {s : Bytes} (h : Written es s) : ProperLits es := by
  induction h with
  | nil => intro raw h; simp at h
  | cons e es w s he _ _ ih =>
    intro raw hm
    rcases List.mem_cons.mp hm with rfl | hm
    · cases he with
      | literal _ _ h => exact h
    · exact ih raw hm

theorem properLits_tail {e : Elem} {es : List Elem} (h : ProperLits (e :: es)) : ProperLits es := fun raw hm => h raw (List.mem_cons_of_mem _ hm)

/-- what the list of elements starts with, and the tokens it gives -/
inductive HeadView : List Elem → List Token → Prop
  | nil : HeadView [] []
  | literal (raw : Bytes) (es : List Elem) : HeadView (.literal raw :: es) (.literal (unescape raw) :: tokens es)
  | int (os : List LenOpt) (n : Option Bytes) (es : List Elem) : HeadView (.int os n :: es) (.parser (intParser os n) :: tokens es)
  | set (cs : Bytes) (os : List LenOpt) (n : Option Bytes) (es : List Elem) : HeadView (.set cs os n :: es) (.parser (setParser cs os n) :: tokens es)
  | ended (n : Option Bytes) (raw : Bytes) (es : List Elem) :
      HeadView (.greedy n :: .literal raw :: es) (.parser (.greedy { name := n, endString := some raw }) :: .literal raw :: tokens es)
  | open (n : Option Bytes) (es : List Elem) : startsLiteral es = false →
      HeadView (.greedy n :: es) (.parser (.greedy { name := n, endString := none }) :: tokens es)

theorem headView (es : List Elem) : HeadView es (tokens es) := by
  cases es with
  | nil => exact .nil
  | cons e es => cases e with
    | literal raw => exact .literal raw es
    | int os n => exact .int os n es
    | set cs os n => exact .set cs os n es
    | greedy n =>
      by_cases h : startsLiteral es = false
      · rw [tokens_greedy_open h]; exact .open n es h
      · cases es with
        | nil => exact absurd rfl h
        | cons e es => cases e with
          | literal raw => exact .ended n raw es
          | int => exact absurd rfl h
          | set => exact absurd rfl h
          | greedy => exact absurd rfl h

theorem alike_of_tokens {es es' : List Elem} (hl : ProperLits es) (hl' : ProperLits es') (h : tokens es = tokens es') : Each SpelledAlike es es' := by
  have step : ∀ (k : Nat) {es es' : List Elem}, es.length < k → ProperLits es → ProperLits es' → tokens es = tokens es' → Each SpelledAlike es es' := by
    intro k
    induction k with
    | zero => intro es es' hk; omega
    | succ k ih =>
      intro es es' hk hl hl' h
      have h1 := headView es
      have h2 := headView es'
      rw [← h] at h2
      have hopt : ∀ {o o' : Option Nat}, o = o' → ∀ n, o = some n ↔ o' = some n := fun e n => by rw [e]
      generalize hts : tokens es = ts at h1 h2
      cases h1 with
      | nil => cases h2; exact .nil
      | literal raw r =>
        generalize hx : unescape raw = x at h2
        generalize hy : tokens r = y at h2
        cases h2 with
        | literal raw' r' =>
          have := unescape_inj _ (Nat.le_refl _) (hl raw (by simp)) (hl' raw' (by simp)) hx
          subst this
          exact .cons _ _ _ _ (.literal _) (ih (by simp at hk; omega) (properLits_tail hl) (properLits_tail hl') hy)
      | int os n r =>
        generalize hx : Token.parser (intParser os n) = x at h2
        generalize hy : tokens r = y at h2
        cases h2 <;> simp [intParser, setParser] at hx
        rename_i os' n' r'
        obtain ⟨rfl, h3, h4⟩ := hx
        exact .cons _ _ _ _ (.int _ _ _ (hopt h3) (hopt h4)) (ih (by simp at hk; omega) (properLits_tail hl) (properLits_tail hl') hy)
      | set cs os n r =>
        generalize hx : Token.parser (setParser cs os n) = x at h2
        generalize hy : tokens r = y at h2
        cases h2 <;> simp [intParser, setParser] at hx
        rename_i cs' os' n' r'
        obtain ⟨rfl, h5, h3, h4⟩ := hx
        exact .cons _ _ _ _ (.set _ _ _ _ _ (set_same.mp h5) (hopt h3) (hopt h4))
          (ih (by simp at hk; omega) (properLits_tail hl) (properLits_tail hl') hy)
      | ended n raw r =>
        generalize hx : Token.parser (.greedy { name := n, endString := some raw }) = x at h2
        generalize hz : Token.literal raw :: tokens r = z at h2
        cases h2 <;> simp [intParser, setParser] at hx
        rename_i n' raw' r'
        obtain ⟨rfl, rfl⟩ := hx
        simp at hz
        exact .cons _ _ _ _ (.greedy _) (.cons _ _ _ _ (.literal _)
          (ih (by simp at hk; omega) (properLits_tail (properLits_tail hl)) (properLits_tail (properLits_tail hl')) hz))
      | «open» n r hr =>
        generalize hx : Token.parser (.greedy { name := n, endString := none }) = x at h2
        generalize hy : tokens r = y at h2
        cases h2 <;> simp [intParser, setParser] at hx
        rename_i n' r' hr'
        subst hx
        exact .cons _ _ _ _ (.greedy _) (ih (by simp at hk; omega) (properLits_tail hl) (properLits_tail hl') hy)
  exact step _ (Nat.lt_succ_self _) hl hl' h

/-- C124: two pattern strings compile to the same pattern exactly when their elements are the same up to the order and repetition of the characters of a
`SET` and up to options that later options override: no other difference is lost, and these have no effect. -/
theorem C124_same_pattern {s s' : Bytes} {es es' : List Elem} (hu : Utf8 s) (hu' : Utf8 s') (hn : es ≠ []) (hn' : es' ≠ []) (h : Written es s)
    (h' : Written es' s') : compile s = compile s' ↔ Each SpelledAlike es es' := by
  rw [written_compiles hu hn h, written_compiles hu' hn' h']
  constructor
  · intro e
    simp at e
    exact alike_of_tokens (written_properLits h) (written_properLits h') e
  · intro e
    rw [tokens_alike e]

/-- Two spellings of one pattern, and a third string that is a different pattern. -/
example : compile b!"a%{SET(\"abc\",min_len=1,max_len=2):x}" = compile b!"a%{SET(\"cabba\",  max_len=2, min_len=5,min_len=01):x}" ∧
    compile b!"a%{SET(\"abc\",min_len=1,max_len=2):x}" ≠ compile b!"a%{SET(\"abc\",min_len=2,max_len=2):x}" := by
  have n1 : Number b!"1" 1 := .one 49 (by unfold Digit; decide)
  have n2 : Number b!"2" 2 := .one 50 (by unfold Digit; decide)
  have n5 : Number b!"5" 5 := .one 53 (by unfold Digit; decide)
  have n01 : Number b!"01" 1 := .snoc b!"0" 0 49 (.one 48 (by unfold Digit; decide)) (by unfold Digit; decide)
  have hx : NameText (some b!"x") b!":x" := .some _ (.mk 120 [] (by unfold NameStart; decide) (by simp) (by simp))
  have hlit : ElemText (.literal b!"a") b!"a" := .literal _ (by decide) (by decide)
  have w1 : ∀ (k : Nat) (d : Bytes), Number d k → k < 2 ^ 64 →
      Written [.literal b!"a", .set b!"abc" [.min k, .max 2] (some b!"x")] (b!"a" ++ (b!"%{SET(\"" ++ b!"abc" ++ b!"\"" ++
        (b!"," ++ (b!"min_len=" ++ d ++ (b!"," ++ (b!"max_len=" ++ b!"2") ++ []))) ++ b!")" ++ b!":x" ++ b!"}" ++ [])) := by
    intro k d hd hk
    exact .cons _ _ _ _ hlit (.cons _ _ _ _ (.set _ _ _ _ _ (by decide) (by decide) (.present _ _ _ ⟨0, rfl⟩
      (.cons _ _ _ _ (.min _ _ hd hk) (.cons _ _ _ _ _ ⟨0, rfl⟩ (.max _ _ n2 (by decide)) .nil))) hx) .nil (by simp [Elem.isLiteral]))
      (by simp [startsLiteral, Elem.isLiteral])
  have w2 : Written [.literal b!"a", .set b!"cabba" [.max 2, .min 5, .min 1] (some b!"x")] b!"a%{SET(\"cabba\",  max_len=2, min_len=5,min_len=01):x}" :=
    .cons _ _ b!"a" _ hlit (.cons _ _ b!"%{SET(\"cabba\",  max_len=2, min_len=5,min_len=01):x}" [] (.set b!"cabba" _ _
      b!",  max_len=2, min_len=5,min_len=01" b!":x" (by decide) (by decide) (.present _ b!",  " b!"max_len=2, min_len=5,min_len=01" ⟨2, rfl⟩
      (.cons _ _ b!"max_len=2" b!", min_len=5,min_len=01" (.max b!"2" _ n2 (by decide)) (.cons _ _ b!", " b!"min_len=5" b!",min_len=01" ⟨1, rfl⟩
        (.min b!"5" _ n5 (by decide)) (.cons _ _ b!"," b!"min_len=01" [] ⟨0, rfl⟩ (.min b!"01" _ n01 (by decide)) .nil)))) hx) .nil (by simp [Elem.isLiteral]))
      (by simp [startsLiteral, Elem.isLiteral])
  constructor
  · refine (C124_same_pattern (ascii_utf8 (by decide)) (ascii_utf8 (by decide)) (by simp) (by simp) (w1 1 b!"1" n1 (by decide)) w2).mpr ?_
    refine .cons _ _ _ _ (.literal _) (.cons _ _ _ _ (.set _ _ _ _ _ ?_ (by simp [lastMin]) (by simp [lastMax])) .nil)
    intro c; simp; grind
  · intro h
    have := (C124_same_pattern (ascii_utf8 (by decide)) (ascii_utf8 (by decide)) (by simp) (by simp) (w1 1 b!"1" n1 (by decide)) (w1 2 b!"2" n2 (by decide))).mp h
    cases this with
    | cons _ _ _ _ _ h => cases h with
      | cons _ _ _ _ h _ => cases h with
        | set _ _ _ _ _ _ h _ => simpa [lastMin] using h 1

end Verif
