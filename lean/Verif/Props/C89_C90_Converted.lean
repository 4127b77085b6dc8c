import Verif.Model.Pdb2adb
import Verif.Spec.PatternDb
import Verif.Spec.Samples
import Verif.Proofs.Peg
import Verif.Proofs.GrammarTop
import Verif.Props.C32_C39_Grammar
/-! C89, C90: the patterns written by the script /repo/utils/pdb2adb. -/
namespace Verif
open Spec Perl

/-! ### Perl's `split` -/

theorem fields_ne (keep : Bool) (sep : Char) (s : Str) : fields keep sep s ≠ [] := by
  cases s with
  | nil => simp [fields]
  | cons c s => unfold fields; split <;> try split
                all_goals simp

theorem fields_text {keep : Bool} {sep : Char} {t : Str} (ht : sep ∉ t) (s : Str) : ∃ f fs, fields keep sep s = f :: fs ∧ fields keep sep (t ++ s) = (t ++ f) :: fs := by
  cases h : fields keep sep s with
  | nil => exact absurd h (fields_ne _ _ _)
  | cons f fs =>
    refine ⟨f, fs, rfl, ?_⟩
    induction t with
    | nil => exact h
    | cons c t ih =>
      simp at ht
      have := ih ht.2
      simp only [List.cons_append, fields, this]
      rw [if_neg (fun e => ht.1 e.symm)]

theorem fields_free {keep : Bool} {sep : Char} {t : Str} (ht : sep ∉ t) : fields keep sep t = [t] := by
  obtain ⟨f, fs, h1, h2⟩ := fields_text (keep := keep) ht []
  simp [fields] at h1
  rw [h1.1, h1.2] at h2
  simpa using h2

theorem fields_mem_free {keep : Bool} {sep : Char} (s : Str) : ∀ f fs, fields keep sep s = f :: fs → sep ∉ f := by
  induction s with
  | nil => simp [fields]
  | cons c s ih =>
    intro f fs h
    unfold fields at h
    split at h
    · simp at h; rw [h.1]; simp
    · rename_i hc
      cases hs : fields keep sep s with
      | nil => exact absurd hs (fields_ne _ _ _)
      | cons g gs =>
        rw [hs] at h
        simp at h
        have := ih g gs hs
        rw [← h.1]; simp [this]; exact fun e => hc e.symm

theorem fields_sep {sep : Char} (s : Str) : fields true sep (sep :: s) = [] :: [sep] :: fields true sep s := by simp [fields]

theorem fields_sepF {sep : Char} (s : Str) : fields false sep (sep :: s) = [] :: fields false sep s := by simp [fields]

theorem replaceAts_free {s : Str} (h : '@' ∉ s) : replaceAts s = s := by
  fun_induction replaceAts s with
  | case1 => simp at h
  | case2 c s _ ih => simp at h; rw [ih h.2]
  | case3 => rfl

/-! ### The loop -/

theorem loop_text {t : Str} (ht : '@' ∉ t) (s out : Str) :
    p2pLoop (fields true '@' (t ++ s)) false out = p2pLoop (fields true '@' s) false (out ++ t) := by
  obtain ⟨f, fs, h1, h2⟩ := fields_text (keep := true) ht s
  have hf := fields_mem_free s f fs h1
  have h3 : '@' ∉ t ++ f := by simp [ht, hf]
  have n1 : t ++ f ≠ ['@'] := fun e => h3 (e ▸ by simp)
  have n2 : f ≠ ['@'] := fun e => hf (e ▸ by simp)
  rw [h1, h2]
  simp only [p2pLoop, n1, n2, if_false, unescapePattern, replaceAts_free h3, replaceAts_free hf, List.append_assoc]
  simp

theorem loop_parser {spec w : Str} (hs : '@' ∉ spec) (hv : validatePattern spec = some w) (ht : truthy w = true) (s out : Str) :
    p2pLoop (fields true '@' ('@' :: spec ++ '@' :: s)) false out = p2pLoop (fields true '@' s) false (out ++ w) := by
  have n2 : spec ≠ ['@'] := fun e => hs (e ▸ by simp)
  obtain ⟨f, fs, h1, h2⟩ := fields_text (keep := true) hs ('@' :: s)
  rw [fields_sep] at h1
  simp at h1
  have e : fields true '@' ('@' :: spec ++ '@' :: s) = [] :: ['@'] :: spec :: ['@'] :: fields true '@' s := by
    rw [List.cons_append, fields_sep, h2, h1.1, ← h1.2]; simp
  rw [e]
  simp [p2pLoop, n2, hv, ht, unescapePattern, replaceAts]

theorem loop_snoc (fs : List Str) (st : Bool) (out r : Str) (h : p2pLoop (fs ++ [[]]) st out = some r) : p2pLoop fs st out = some r := by
  induction fs generalizing st out with
  | nil =>
    cases st with
    | false => simpa [p2pLoop, unescapePattern, replaceAts] using h
    | true => simp [p2pLoop, validatePattern, truthy, isWord] at h
  | cons f fs ih =>
    simp only [List.cons_append, p2pLoop] at h ⊢
    split
    · rename_i c; rw [if_pos c] at h; exact ih _ _ h
    · rename_i c
      rw [if_neg c] at h
      split
      · rename_i c2
        rw [if_pos c2] at h
        split at h
        · rename_i s hs
          split at h
          · rename_i c3
            simp only [c3, if_true]
            exact ih _ _ h
          · simp at h
        · simp at h
      · rename_i c2
        rw [if_neg c2] at h
        exact ih _ _ h

theorem loop_trailing (fs : List Str) (st : Bool) (out r : Str) (h : p2pLoop fs st out = some r) : p2pLoop (dropTrailingEmpty fs) st out = some r := by
  have : ∀ gs : List Str, ∀ r, p2pLoop gs.reverse st out = some r → p2pLoop (gs.dropWhile List.isEmpty).reverse st out = some r := by
    intro gs
    induction gs with
    | nil => intro r h; exact h
    | cons g gs ih =>
      intro r h
      cases g with
      | nil =>
        simp only [List.dropWhile_cons, List.isEmpty_nil, if_true]
        exact ih r (loop_snoc _ _ _ _ (by simpa using h))
      | cons a b => simpa [List.dropWhile_cons] using h
  have h2 := this fs.reverse r (by simpa using h)
  exact h2

/-! ### One parser -/

theorem spec_fields (type : Str) (args : List Str) (ht : ':' ∉ type) (ha : ∀ a ∈ args, ':' ∉ a) :
    fields false ':' (type ++ args.flatMap (fun a => ':' :: a)) = type :: args := by
  induction args generalizing type with
  | nil => simpa using fields_free ht
  | cons a args ih =>
    simp only [List.flatMap_cons, List.cons_append]
    obtain ⟨f, fs, h1, h2⟩ := fields_text (keep := false) ht (':' :: (a ++ args.flatMap fun a => ':' :: a))
    rw [fields_sepF, ih a (ha a (by simp)) (fun b hb => ha b (List.mem_cons_of_mem _ hb))] at h1
    simp at h1
    rw [h2, h1.1, h1.2]; simp

/-- What `_validate_pattern` does with the type, the name and the argument. -/
def dispatch (arg type key opt : Str) : Option Str :=
  if isWord [] type then some []
  else if isWord "ESTRING".toList type then some ("%{GREEDY:".toList ++ key ++ "}".toList ++ if "::".toList.isSuffixOf arg then ":".toList else opt)
  else if contains "QSTRING".toList type then
    some (opt.take 1 ++ "%{GREEDY:".toList ++ key ++ "}".toList ++ if opt.length > 1 then (opt.drop 1).take 1 else opt.take 1)
  else if isWord "NUMBER".toList type then some ("%{INT:".toList ++ key ++ "}".toList)
  else if isWord "HOSTNAME".toList type then some ("%{SET(\"".toList ++ alnum ++ "-.\"):".toList ++ key ++ "}".toList)
  else if startsWith "FLOAT".toList type || endsWith "DOUBLE".toList type then some ("%{SET(\"1234567890.\"):".toList ++ key ++ "}".toList)
  else if isWord "STRING".toList type then
    if truthy opt then some ("%{SET(\"".toList ++ alnum ++ opt ++ "\"):".toList ++ key ++ "}".toList)
    else some ("%{SET(\"".toList ++ alnum ++ "\"):".toList ++ key ++ "}".toList)
  else if isWord "PCRE".toList type then none
  else if isWord "ANYSTRING".toList type then some ("%{GREEDY:".toList ++ key ++ "}".toList)
  else if isWord "SET".toList type then some ("%{SET(\"".toList ++ opt ++ "\"):".toList ++ key ++ "}".toList)
  else if startsWith "IPvANY".toList type || startsWith "MACADDR".toList type || startsWith "IPv4".toList type || startsWith "LLADDR".toList type then
    some ("%{GREEDY:".toList ++ key ++ "}".toList)
  else none

theorem validate_dispatch (type : Str) (args : List Str) (ht : ':' ∉ type) (hn : truthy type = true) (ha : ∀ a ∈ args, ':' ∉ a) :
    validatePattern (type ++ args.flatMap (fun a => ':' :: a)) =
      dispatch (type ++ args.flatMap (fun a => ':' :: a)) type (if truthy (args[0]?.getD []) then args[0]?.getD [] else "pdb2adb2ignore".toList) (args[1]?.getD []) := by
  have hne : (type ++ args.flatMap (fun a => ':' :: a)).isEmpty = false := by
    cases type with
    | nil => simp [truthy] at hn
    | cons a b => rfl
  unfold validatePattern
  simp only [hne, spec_fields type args ht ha]
  simp only [Bool.false_eq_true, if_false, List.getElem?_cons_zero, List.getElem?_cons_succ, Option.getD_some, hn, if_true]
  rfl

theorem ignore_name : Name b!"pdb2adb2ignore" := by
  refine Name.mk 112 b!"db2adb2ignore" (.inl (by decide)) ?_ ?_
  · intro x hx
    simp at hx
    rcases hx with rfl | rfl | rfl | rfl | rfl | rfl | rfl | rfl | rfl | rfl | rfl | rfl | rfl <;>
      first
        | exact .inl (.inl (by decide))
        | exact .inr (.inl (by constructor <;> decide))
  · intro x hx
    simp at hx
    rcases hx with rfl | rfl | rfl | rfl | rfl | rfl | rfl | rfl | rfl | rfl | rfl | rfl <;> decide

theorem name_key {args : List Str} {n : Bytes} (h : PdbName args n) :
    Name n ∧ encode (if truthy (args[0]?.getD []) then args[0]?.getD [] else "pdb2adb2ignore".toList) = n := by
  rcases h with ⟨k, h1, h2, rfl⟩ | ⟨h1, rfl⟩
  · have e : args[0]?.getD [] = k := by cases args <;> simp_all
    refine ⟨h2, ?_⟩
    have ht : truthy k = true := by
      cases k with
      | nil => simp [encode] at h2; cases h2
      | cons c k =>
        simp only [truthy]
        by_cases e : c :: k = ['0']
        · rw [e] at h2
          exfalso
          have : encode ['0'] = [48] := by decide
          rw [this] at h2
          cases h2 with
          | mk _ _ a _ _ => revert a; unfold NameStart; decide
        · simp at e ⊢
          by_cases c0 : c = '0'
          · exact .inr (e c0)
          · exact .inl c0
    rw [e, ht]; rfl
  · have e : args[0]?.getD [] = [] := by cases args <;> simp_all
    refine ⟨ignore_name, ?_⟩
    rw [e]; decide

/-- The elements one after the other; literal text may be split and empty. -/
inductive RawText : List Elem → Bytes → Prop
  | nil : RawText [] []
  | lit (raw : Bytes) (es : List Elem) (s : Bytes) : RawText es s → RawText (.literal raw :: es) (raw ++ s)
  | other (e : Elem) (es : List Elem) (w s : Bytes) : ElemText e w → e.isLiteral = false → RawText es s → RawText (e :: es) (w ++ s)

theorem RawText.append {a b : List Elem} {s t : Bytes} (h1 : RawText a s) (h2 : RawText b t) : RawText (a ++ b) (s ++ t) := by
  induction h1 with
  | nil => exact h2
  | lit raw es s _ ih => rw [List.append_assoc]; exact .lit raw _ _ ih
  | other e es w s he hl _ ih => rw [List.append_assoc]; exact .other e _ w _ he hl ih

theorem RawText.join {es : List Elem} {s : Bytes} (h : RawText es s) (hl : ∀ raw, .literal raw ∈ joinLiterals es → ¬ b!"%{" <:+: raw) :
    Written (joinLiterals es) s := by
  induction h with
  | nil => exact .nil
  | lit raw es s _ ih =>
    unfold joinLiterals at hl ⊢
    split
    · rename_i b r hj
      rw [hj] at hl ih
      have hb : ¬ b!"%{" <:+: raw ++ b := hl _ (by simp)
      have h1 : ¬ b!"%{" <:+: b := fun h => hb (h.trans (List.suffix_append _ _).isInfix)
      have h2 := ih fun x hx => by
        rcases List.mem_cons.mp hx with hx | hx
        · simp at hx; rw [hx]; exact h1
        · exact hl x (List.mem_cons_of_mem _ hx)
      cases h2 with
      | cons _ _ w s' he hr hs =>
        cases he with
        | literal _ hne _ =>
          rw [← List.append_assoc]
          exact .cons _ _ _ _ (.literal _ (by simp [hne]) hb) hr hs
    · rename_i r hj
      split at hl
      · rename_i b r' hj'
        exact absurd hj' (hj b r')
      · split
        · rename_i he
          subst he
          simp only [if_true, List.nil_append] at hl ⊢
          exact ih hl
        · rename_i hne
          rw [if_neg hne] at hl
          refine .cons _ _ _ _ (.literal _ hne (hl _ (by simp))) (ih fun x hx => hl x (List.mem_cons_of_mem _ hx)) fun _ => ?_
          cases hj2 : joinLiterals es with
          | nil => rfl
          | cons e r =>
            cases e with
            | literal b => exact absurd hj2 (hj b r)
            | int => rfl
            | set => rfl
            | greedy => rfl
  | other e es w s he hn _ ih =>
    have e1 : joinLiterals (e :: es) = e :: joinLiterals es := by
      cases e with
      | literal => simp [Elem.isLiteral] at hn
      | _ => rfl
    rw [e1] at hl ⊢
    exact .cons _ _ _ _ he (ih fun x hx => hl x (List.mem_cons_of_mem _ hx)) fun h => by rw [hn] at h; cases h

theorem greedy_text {n : Bytes} (h : Name n) : RawText [.greedy (some n)] (b!"%{GREEDY:" ++ n ++ b!"}") := by
  have := RawText.other _ _ _ _ (ElemText.greedy (some n) (b!":" ++ n) (.some n h)) rfl .nil
  simpa using this

theorem set_text {cs n : Bytes} (h : Name n) (h1 : cs ≠ []) (h2 : 34 ∉ cs) : RawText [.set cs [] (some n)] (b!"%{SET(\"" ++ cs ++ b!"\"):" ++ n ++ b!"}") := by
  have := RawText.other _ _ _ _ (ElemText.set cs [] (some n) [] (b!":" ++ n) h1 h2 .absent (.some n h)) rfl .nil
  simpa using this

theorem int_text {n : Bytes} (h : Name n) : RawText [.int [] (some n)] (b!"%{INT:" ++ n ++ b!"}") := by
  have := RawText.other _ _ _ _ (ElemText.int [] (some n) [] (b!":" ++ n) .absent (.some n h)) rfl .nil
  simpa using this

theorem lit_text (raw : Bytes) : RawText [.literal raw] raw := by simpa using RawText.lit raw [] [] .nil

theorem quote_free {cs : Str} (h : '"' ∉ cs) : 34 ∉ encode cs := by
  intro hm
  simp only [encode, List.mem_flatMap] at hm
  obtain ⟨c, hc, hm⟩ := hm
  obtain ⟨b, tl, e1, _, e3, _⟩ := enc_shape c
  rw [e1] at hm
  rcases List.mem_cons.mp hm with hm | hm
  · have hm' := hm
    obtain ⟨rfl, h1, h2⟩ := enc_first_ascii e1 (hm' ▸ by decide)
    have : c = '"' := by
      apply enc_inj
      rw [e1, ← hm']; decide
    exact h (this ▸ hc)
  · have := e3 _ hm
    exact absurd this (by decide)

theorem encode_ne {cs : Str} (h : cs ≠ []) : encode cs ≠ [] := by
  cases cs with
  | nil => exact absurd rfl h
  | cons c t => rw [utf8Of_cons]; simp

theorem truthy_percent (a : Str) : truthy ('%' :: a) = true := by simp [truthy]

theorem assoc5 (a b c d e : Bytes) : a ++ b ++ c ++ d ++ e = a ++ (b ++ c ++ d ++ e) := by simp

/-- The default for the name of a value. -/
def keyOf (args : List Str) : Str := if truthy (args[0]?.getD []) then args[0]?.getD [] else "pdb2adb2ignore".toList

theorem means_text {type : Str} {args : List Str} {es : List Elem} (h : PdbMeans type args es) (ha : ∀ a ∈ args, ':' ∉ a) :
    ∃ w, validatePattern (type ++ args.flatMap (fun a => ':' :: a)) = some w ∧ truthy w = true ∧ RawText es (encode w) := by
  have d := fun ht hn => validate_dispatch type args ht hn ha
  rw [show (if truthy (args[0]?.getD []) then args[0]?.getD [] else "pdb2adb2ignore".toList) = keyOf args from rfl] at d
  have nk : ∀ n, PdbName args n → Name n ∧ encode (keyOf args) = n := fun n hn => name_key hn
  cases h with
  | number args n hn =>
    obtain ⟨h1, h2⟩ := nk n hn
    rw [d (by decide) (by decide)]
    refine ⟨"%{INT:".toList ++ keyOf args ++ "}".toList, rfl, truthy_percent _, ?_⟩
    rw [utf8Of_append, utf8Of_append, h2]
    exact int_text h1
  | rest type args n hn ht =>
    obtain ⟨h1, h2⟩ := nk n hn
    have ht' : type = "ANYSTRING".toList ∨ type = "IPvANY".toList ∨ type = "MACADDR".toList ∨ type = "IPv4".toList ∨ type = "LLADDR".toList := by simpa using ht
    have e : validatePattern (type ++ args.flatMap (fun a => ':' :: a)) = some ("%{GREEDY:".toList ++ keyOf args ++ "}".toList) := by
      rcases ht' with rfl | rfl | rfl | rfl | rfl <;> (rw [d (by decide) (by decide)]; rfl)
    refine ⟨_, e, truthy_percent _, ?_⟩
    rw [utf8Of_append, utf8Of_append, h2]
    exact greedy_text h1
  | estring key stop n hn hs =>
    obtain ⟨h1, h2⟩ := nk n (by simpa [PdbName] using hn)
    rw [d (by decide) (by decide)]
    have hsuf : "::".toList.isSuffixOf ("ESTRING".toList ++ [key, stop].flatMap (fun a => ':' :: a)) = false := by
      cases hb : "::".toList.isSuffixOf ("ESTRING".toList ++ [key, stop].flatMap (fun a => ':' :: a)) with
      | false => rfl
      | true =>
        exfalso
        rw [List.isSuffixOf_iff_suffix] at hb
        have h3 : ':' :: [] <:+ "::".toList := ⟨[':'], rfl⟩
        have h4 : stop <:+ "ESTRING".toList ++ [key, stop].flatMap (fun a => ':' :: a) := ⟨"ESTRING".toList ++ ':' :: key ++ [':'], by simp⟩
        have h5 := List.suffix_of_suffix_length_le (h3.trans hb) h4 (by cases stop <;> simp_all)
        exact ha stop (by simp) (h5.subset (by simp))
    refine ⟨"%{GREEDY:".toList ++ keyOf [key, stop] ++ "}".toList ++ stop, ?_, truthy_percent _, ?_⟩
    · have : dispatch ("ESTRING".toList ++ [key, stop].flatMap (fun a => ':' :: a)) "ESTRING".toList (keyOf [key, stop]) stop =
        some ("%{GREEDY:".toList ++ keyOf [key, stop] ++ "}".toList ++ (if "::".toList.isSuffixOf ("ESTRING".toList ++ [key, stop].flatMap (fun a => ':' :: a)) then ":".toList else stop)) := rfl
      rw [hsuf] at this
      exact this
    · rw [utf8Of_append, utf8Of_append, utf8Of_append, h2]
      exact (greedy_text h1).append (lit_text _)
  | colon key n hn =>
    obtain ⟨h1, h2⟩ := nk n (by simpa [PdbName] using hn)
    rw [d (by decide) (by decide)]
    have hsuf : "::".toList.isSuffixOf ("ESTRING".toList ++ [key, [], []].flatMap (fun a => ':' :: a)) = true := by
      rw [List.isSuffixOf_iff_suffix]
      exact ⟨"ESTRING".toList ++ ':' :: key, by simp⟩
    refine ⟨"%{GREEDY:".toList ++ keyOf [key, [], []] ++ "}".toList ++ [':'], ?_, truthy_percent _, ?_⟩
    · have : dispatch ("ESTRING".toList ++ [key, [], []].flatMap (fun a => ':' :: a)) "ESTRING".toList (keyOf [key, [], []]) [] =
        some ("%{GREEDY:".toList ++ keyOf [key, [], []] ++ "}".toList ++ (if "::".toList.isSuffixOf ("ESTRING".toList ++ [key, [], []].flatMap (fun a => ':' :: a)) then ":".toList else [])) := rfl
      rw [hsuf] at this
      exact this
    · rw [utf8Of_append, utf8Of_append, utf8Of_append, h2]
      exact (greedy_text h1).append (lit_text _)
  | quoted key q n hn =>
    obtain ⟨h1, h2⟩ := nk n (by simpa [PdbName] using hn)
    rw [d (by decide) (by decide)]
    refine ⟨[q] ++ "%{GREEDY:".toList ++ keyOf [key, [q]] ++ "}".toList ++ [q], rfl, by simp [truthy], ?_⟩
    rw [utf8Of_append, utf8Of_append, utf8Of_append, utf8Of_append, h2]
    have := (lit_text (encode [q])).append ((greedy_text h1).append (lit_text (encode [q])))
    rw [assoc5]
    exact this
  | bracketed key q r n hn =>
    obtain ⟨h1, h2⟩ := nk n (by simpa [PdbName] using hn)
    rw [d (by decide) (by decide)]
    refine ⟨[q] ++ "%{GREEDY:".toList ++ keyOf [key, [q, r]] ++ "}".toList ++ [r], rfl, by simp [truthy], ?_⟩
    rw [utf8Of_append, utf8Of_append, utf8Of_append, utf8Of_append, h2]
    have := (lit_text (encode [q])).append ((greedy_text h1).append (lit_text (encode [r])))
    rw [assoc5]
    exact this
  | hostname args n hn =>
    obtain ⟨h1, h2⟩ := nk n hn
    rw [d (by decide) (by decide)]
    refine ⟨"%{SET(\"".toList ++ alnum ++ "-.\"):".toList ++ keyOf args ++ "}".toList, rfl, truthy_percent _, ?_⟩
    rw [utf8Of_append, utf8Of_append, h2]
    exact set_text (cs := pdbAlnum ++ b!"-.") h1 (by decide) (by decide)
  | float type args n hn ht =>
    obtain ⟨h1, h2⟩ := nk n hn
    have ht' : type = "FLOAT".toList ∨ type = "DOUBLE".toList := by simpa using ht
    have e : validatePattern (type ++ args.flatMap (fun a => ':' :: a)) = some ("%{SET(\"1234567890.\"):".toList ++ keyOf args ++ "}".toList) := by
      rcases ht' with rfl | rfl <;> (rw [d (by decide) (by decide)]; rfl)
    refine ⟨_, e, truthy_percent _, ?_⟩
    rw [utf8Of_append, utf8Of_append, h2]
    exact set_text (cs := b!"1234567890.") h1 (by decide) (by decide)
  | string args n hn hl =>
    obtain ⟨h1, h2⟩ := nk n hn
    rw [d (by decide) (by decide)]
    have e : args[1]?.getD [] = [] := by
      rw [List.getElem?_eq_none (by omega)]; rfl
    rw [e]
    refine ⟨"%{SET(\"".toList ++ alnum ++ "\"):".toList ++ keyOf args ++ "}".toList, rfl, truthy_percent _, ?_⟩
    rw [utf8Of_append, utf8Of_append, h2]
    exact set_text (cs := pdbAlnum) h1 (by decide) (by decide)
  | stringWith key more n hn hq h0 =>
    obtain ⟨h1, h2⟩ := nk n (by simpa [PdbName] using hn)
    rw [d (by decide) (by decide)]
    refine ⟨"%{SET(\"".toList ++ alnum ++ more ++ "\"):".toList ++ keyOf [key, more] ++ "}".toList, ?_, truthy_percent _, ?_⟩
    · have : dispatch ("STRING".toList ++ [key, more].flatMap (fun a => ':' :: a)) "STRING".toList (keyOf [key, more]) more =
        if truthy more then some ("%{SET(\"".toList ++ alnum ++ more ++ "\"):".toList ++ keyOf [key, more] ++ "}".toList)
        else some ("%{SET(\"".toList ++ alnum ++ "\"):".toList ++ keyOf [key, more] ++ "}".toList) := rfl
      cases more with
      | nil => exact this
      | cons c r =>
        have ht : truthy (c :: r) = true := by simp only [truthy]; simp; simp at h0; by_cases e : c = '0' <;> simp_all
        rw [ht, if_pos rfl] at this
        exact this
    · have := set_text (cs := pdbAlnum ++ encode more) h1 (by simp [pdbAlnum]) (by
        rw [List.mem_append]; rintro (h | h)
        · revert h; decide
        · exact quote_free hq h)
      simp only [utf8Of_append, h2]
      rw [← List.append_assoc] at this
      exact this
  | stringZero key n hn =>
    obtain ⟨h1, h2⟩ := nk n (by simpa [PdbName] using hn)
    rw [d (by decide) (by decide)]
    refine ⟨"%{SET(\"".toList ++ alnum ++ "\"):".toList ++ keyOf [key, ['0']] ++ "}".toList, rfl, truthy_percent _, ?_⟩
    rw [utf8Of_append, utf8Of_append, h2]
    exact set_text (cs := pdbAlnum) h1 (by decide) (by decide)
  | set key chars n hn hq hne =>
    obtain ⟨h1, h2⟩ := nk n (by simpa [PdbName] using hn)
    rw [d (by decide) (by decide)]
    refine ⟨"%{SET(\"".toList ++ chars ++ "\"):".toList ++ keyOf [key, chars] ++ "}".toList, rfl, truthy_percent _, ?_⟩
    simp only [utf8Of_append, h2]
    exact set_text h1 (encode_ne hne) (quote_free hq)

theorem means_free {type : Str} {args : List Str} {es : List Elem} (h : PdbMeans type args es) : '@' ∉ type := by
  cases h with
  | rest _ _ _ _ ht =>
    have ht' : type = "ANYSTRING".toList ∨ type = "IPvANY".toList ∨ type = "MACADDR".toList ∨ type = "IPv4".toList ∨ type = "LLADDR".toList := by simpa using ht
    rcases ht' with rfl | rfl | rfl | rfl | rfl <;> decide
  | float _ _ _ _ ht =>
    have ht' : type = "FLOAT".toList ∨ type = "DOUBLE".toList := by simpa using ht
    rcases ht' with rfl | rfl <;> decide
  | _ => decide

theorem args_free {args : List Str} (h : ∀ a ∈ args, '@' ∉ a) : '@' ∉ args.flatMap (fun a => ':' :: a) := by
  intro hm
  obtain ⟨a, ha, hm⟩ := List.mem_flatMap.mp hm
  rcases List.mem_cons.mp hm with e | e
  · exact absurd e (by decide)
  · exact h a ha e

theorem pieces_text {ps : List PdbPiece} {ess : List (List Elem)} (h : Each PdbPieceMeans ps ess) (out : Str) :
    ∃ w, p2pLoop (fields true '@' (pdbSource ps)) false out = some (out ++ w) ∧ RawText ess.flatten (encode w) := by
  induction h generalizing out with
  | nil => exact ⟨[], by simp [pdbSource, fields, p2pLoop, unescapePattern, replaceAts], .nil⟩
  | cons p es ps ess hp _ ih =>
    cases hp with
    | text s hs =>
      obtain ⟨w, h1, h2⟩ := ih (out ++ s)
      refine ⟨s ++ w, ?_, ?_⟩
      · have := loop_text hs (pdbSource ps) out
        rw [h1] at this
        simpa [pdbSource, PdbPiece.source] using this
      · rw [utf8Of_append]
        exact (lit_text _).append h2
    | parser type args es hm ha =>
      obtain ⟨v, h3, h4, h5⟩ := means_text hm (fun a h => (ha a h).2)
      obtain ⟨w, h1, h2⟩ := ih (out ++ v)
      refine ⟨v ++ w, ?_, ?_⟩
      · have hf : '@' ∉ type ++ args.flatMap (fun a => ':' :: a) := by
          rw [List.mem_append]
          rintro (h | h)
          · exact means_free hm h
          · exact args_free (fun a h => (ha a h).1) h
        have := loop_parser hf h3 h4 (pdbSource ps) out
        rw [h1] at this
        simpa [pdbSource, PdbPiece.source] using this
      · rw [utf8Of_append]
        exact h5.append h2

theorem p2p_pieces {ps : List PdbPiece} {ess : List (List Elem)} (h : Each PdbPieceMeans ps ess) :
    ∃ w, p2p (pdbSource ps) = some w ∧ RawText ess.flatten (encode w) := by
  obtain ⟨w, h1, h2⟩ := pieces_text h []
  refine ⟨w, ?_, h2⟩
  rw [List.nil_append] at h1
  unfold p2p
  split
  · rename_i he
    simp at he
    rw [he] at h1
    simpa [fields, p2pLoop, unescapePattern, replaceAts] using h1
  · exact loop_trailing _ _ _ _ h1

theorem unescape_plain {raw : Bytes} (h : ¬ [92, 37, 92, 123] <:+: raw) : unescape raw = raw := by
  fun_induction unescape raw with
  | case1 s _ => exact absurd ⟨[], s, rfl⟩ h
  | case2 c s _ ih => rw [ih fun h' => h (h'.trans (List.suffix_cons _ _).isInfix)]
  | case3 => rfl

theorem tokens_meant (es : List Elem) (h : CleanLiterals es) : tokens es = meant es := by
  fun_induction tokens es with
  | case1 => rfl
  | case2 n raw es ih => simp only [meant]; rw [ih h.2]
  | case3 n es hn ih =>
    cases es with
    | nil => rfl
    | cons e es =>
      cases e with
      | literal raw => exact absurd rfl (hn raw es)
      | _ => rw [ih h]; rfl
  | case4 raw es ih => simp only [meant]; rw [ih h.2.2, unescape_plain h.2.1]
  | case5 os n es ih => simp only [meant]; rw [ih h]
  | case6 cs os n es ih => simp only [meant]; rw [ih h]

theorem clean_begin (es : List Elem) (h : CleanLiterals es) : ∀ raw, .literal raw ∈ es → ¬ b!"%{" <:+: raw := by
  fun_induction CleanLiterals es with
  | case1 => intro raw hr; cases hr
  | case2 n r es ih =>
    intro raw hr
    rcases List.mem_cons.mp hr with e | hr
    · cases e
    · rcases List.mem_cons.mp hr with e | hr
      · injection e with e; rw [e]; exact h.1
      · exact ih h.2 raw hr
  | case3 r es ih =>
    intro raw hr
    rcases List.mem_cons.mp hr with e | hr
    · injection e with e; rw [e]; exact h.1
    · exact ih h.2.2 raw hr
  | case4 e es h1 h2 ih =>
    intro raw hr
    rcases List.mem_cons.mp hr with e' | hr
    · exact absurd e'.symm (h2 raw)
    · exact ih h raw hr

/-! ### Text that is not clean does not come back -/

/-- The elements one after the other; literal text is neither split nor empty, but may contain anything. -/
inductive Loose : List Elem → Bytes → Prop
  | nil : Loose [] []
  | lit (raw : Bytes) (es : List Elem) (s : Bytes) : raw ≠ [] → startsLiteral es = false → Loose es s → Loose (.literal raw :: es) (raw ++ s)
  | other (e : Elem) (es : List Elem) (w s : Bytes) : ElemText e w → e.isLiteral = false → Loose es s → Loose (e :: es) (w ++ s)

theorem RawText.loose {es : List Elem} {s : Bytes} (h : RawText es s) : Loose (joinLiterals es) s := by
  induction h with
  | nil => exact .nil
  | lit raw es s _ ih =>
    unfold joinLiterals
    split
    · rename_i b r hj
      rw [hj] at ih
      cases ih with
      | lit _ _ s h1 h2 h3 => rw [← List.append_assoc]; exact .lit _ _ _ (by simp [h1]) h2 h3
      | other _ _ _ _ _ h => simp [Elem.isLiteral] at h
    · rename_i r hj
      split
      · rename_i he
        subst he
        exact ih
      · rename_i hne
        refine .lit _ _ _ hne ?_ ih
        cases hj2 : joinLiterals es with
        | nil => rfl
        | cons e r =>
          cases e with
          | literal b => exact absurd hj2 (hj b r)
          | int => rfl
          | set => rfl
          | greedy => rfl
  | other e es w s he hn _ ih =>
    have e1 : joinLiterals (e :: es) = e :: joinLiterals es := by
      cases e with
      | literal => simp [Elem.isLiteral] at hn
      | _ => rfl
    rw [e1]
    exact .other _ _ _ _ he hn ih

theorem loose_stop {es : List Elem} {s : Bytes} (h : Loose es s) (hl : startsLiteral es = false) : Stop s := by
  cases h with
  | nil => exact .inl rfl
  | lit => simp [startsLiteral, Elem.isLiteral] at hl
  | other e es w s hw hn _ =>
    obtain ⟨t, rfl⟩ := elemText_stop hw hn
    exact .inr ⟨t ++ s, by simp⟩

theorem unescape_length (raw : Bytes) : (unescape raw).length ≤ raw.length := by
  fun_induction unescape raw with
  | case1 s ih => simp only [List.length_cons]; omega
  | case2 c s _ ih => simp only [List.length_cons]; omega
  | case3 => simp

theorem unescape_escaped (raw : Bytes) (h : unescape raw = raw) : ¬ [92, 37, 92, 123] <:+: raw := by
  fun_induction unescape raw with
  | case1 s ih => simp at h
  | case2 c s hn ih =>
    simp only [List.cons.injEq, true_and] at h
    rintro ⟨a, b, e⟩
    cases a with
    | nil =>
      simp only [List.nil_append, List.cons_append, List.cons.injEq] at e
      exact hn _ e.1.symm e.2.symm
    | cons x a =>
      simp only [List.cons_append, List.cons.injEq] at e
      exact ih h ⟨a, b, e.2⟩
  | case3 => simp

/-- Literal text that comes back as it is and is followed by nothing or a parser is the literal text of the pattern string. -/
theorem literal_same {raw raw' s s' : Bytes} (h : raw ++ s = raw' ++ s') (hs : Stop s) (hs' : Stop s') (hn : NoBegin raw') (hu : unescape raw' = raw) :
    raw = raw' ∧ s = s' := by
  have hl : raw.length ≤ raw'.length := hu ▸ unescape_length raw'
  obtain ⟨z, rfl, rfl⟩ : ∃ z, raw' = raw ++ z ∧ s = z ++ s' := by
    rcases List.append_eq_append_iff.mp h with ⟨z, h1, h2⟩ | ⟨z, h1, h2⟩
    · exact ⟨z, h1, h2⟩
    · have : z = [] := by
        rw [h1, List.length_append] at hl
        exact List.length_eq_zero_iff.mp (by omega)
      subst this
      exact ⟨[], by simpa using h1.symm, by simpa using h2.symm⟩
  suffices z = [] by simp [this]
  rcases hs with hs | ⟨t, hs⟩
  · exact (List.append_eq_nil_iff.mp hs).1
  · cases z with
    | nil => rfl
    | cons a z =>
      cases z with
      | nil =>
        rcases hs' with rfl | ⟨u, rfl⟩ <;> simp at hs
      | cons b z =>
        exfalso
        simp only [List.cons_append, List.nil_append, List.cons.injEq] at hs
        obtain ⟨rfl, rfl, _⟩ := hs
        exact hn ⟨raw, z, by simp⟩

theorem elem_parser {e : Elem} {w : Bytes} (h : ElemText e w) (hl : e.isLiteral = false) (hg : ∀ n, e ≠ .greedy n) :
    ∃ a y, ParserText a y ∧ w = b!"%{" ++ (y ++ b!"}") ∧ ∀ es, tokens (e :: es) = .parser a :: tokens es ∧ meant (e :: es) = .parser a :: meant es ∧
      CleanLiterals (e :: es) = CleanLiterals es := by
  cases h with
  | literal => simp [Elem.isLiteral] at hl
  | int os n w x g1 g2 => exact ⟨_, b!"INT" ++ (w ++ x), .inr ⟨os, n, ⟨w, x, g1, g2, rfl⟩, rfl⟩, by simp, fun es => ⟨rfl, rfl, rfl⟩⟩
  | set cs os n w x g1 g2 g3 g4 =>
    exact ⟨_, b!"SET" ++ (b!"(" ++ (b!"\"" ++ (cs ++ (b!"\"" ++ (w ++ (b!")" ++ x)))))), .inl ⟨cs, os, n, ⟨g1, g2, w, x, g3, g4, rfl⟩, rfl⟩, by simp,
      fun es => ⟨rfl, rfl, rfl⟩⟩
  | greedy n => exact absurd rfl (hg n)

theorem piece_utf8 {a : Parser} {y s : Bytes} (hy : ParserText a y) (hu : Utf8 (b!"%{" ++ (y ++ b!"}") ++ s)) : Utf8 (b!"%{" ++ (y ++ b!"}")) := by
  have a1 : At (b!"%{" ++ (y ++ b!"}") ++ s) 0 (b!"%{" ++ (y ++ (b!"}" ++ s))) := by simpa using At.start hu
  obtain ⟨h, _⟩ := parseParser_runs (a1.step (w := b!"%{") (ascii_utf8 (by decide))) hy ⟨_, rfl⟩
  exact utf8_append (ascii_utf8 (by decide)) (utf8_append h (ascii_utf8 (by decide)))

theorem parser_same {a a' : Parser} {y y' s s' : Bytes} (h : b!"%{" ++ (y ++ b!"}") ++ s = b!"%{" ++ (y' ++ b!"}") ++ s')
    (hu : Utf8 (b!"%{" ++ (y ++ b!"}") ++ s)) (hy : ParserText a y) (hy' : ParserText a' y') : s = s' := by
  have a1 : At (b!"%{" ++ (y ++ b!"}") ++ s) 0 (b!"%{" ++ (y ++ (b!"}" ++ s))) := by simpa using At.start hu
  have a2 : At (b!"%{" ++ (y ++ b!"}") ++ s) 0 (b!"%{" ++ (y' ++ (b!"}" ++ s'))) := by
    have := At.start hu
    rw [h] at this ⊢
    simpa using this
  obtain ⟨st, h1⟩ := piece_parser_runs a1 hy ⟨0, []⟩
  obtain ⟨st', h2⟩ := piece_parser_runs a2 hy' ⟨0, []⟩
  rw [h1] at h2
  simp only [Except.ok.injEq, Prod.mk.injEq, Option.some.injEq] at h2
  have hlen : (b!"%{" ++ (y ++ b!"}")).length = (b!"%{" ++ (y' ++ b!"}")).length := by have := h2.1.1; omega
  exact (List.append_inj h hlen).2

theorem utf8_after {w s : Bytes} (h : Utf8 (w ++ s)) (hw : Utf8 w) : Utf8 s := by
  have := (At.start h).step hw
  exact this.utf8

theorem loose_clean : ∀ (k : Nat) {es es' : List Elem} {s : Bytes}, es.length ≤ k → Utf8 s → Loose es s → Written es' s → tokens es' = meant es →
    CleanLiterals es := by
  intro k
  induction k with
  | zero =>
    intro es es' s hk _ _ _ _
    rw [List.length_eq_zero_iff.mp (by omega : es.length = 0)]
    trivial
  | succ k ih =>
    intro es es' s hk hu hl hw ht
    cases hl with
    | nil => trivial
    | lit raw es s hne hst hl =>
      simp only [List.length_cons] at hk
      cases hw' : es' with
      | nil => rw [hw'] at ht; simp [tokens, meant] at ht
      | cons e' es2 =>
        rw [hw'] at ht hw
        cases e' with
        | int => simp [tokens, meant] at ht
        | set => simp [tokens, meant] at ht
        | greedy n => cases es2 with
          | nil => simp [tokens, meant] at ht
          | cons e2 _ => cases e2 <;> simp [tokens, meant] at ht
        | literal raw' =>
          simp only [tokens, meant, List.cons.injEq, Token.literal.injEq] at ht
          generalize hb : raw ++ s = t at hw
          cases hw with
          | cons _ _ w s' he hw2 hc =>
            cases he with
            | literal _ h1 h2 =>
              have hs' : Stop s' := by simpa using written_stop (rest := []) hw2 (hc rfl) (.inl rfl)
              obtain ⟨rfl, rfl⟩ := literal_same hb (loose_stop hl hst) hs' h2 ht.1
              exact ⟨h2, unescape_escaped _ ht.1, ih (by omega) (utf8_after hu (utf8_left_stop hu hs')) hl hw2 ht.2⟩
    | other e es w s he hn hl =>
      simp only [List.length_cons] at hk
      by_cases hg : ∃ n, e = .greedy n
      · obtain ⟨n, rfl⟩ := hg
        cases he with
        | greedy _ x hx =>
          have same : ∀ {n' : Option Bytes} {x' t t' : Bytes}, NameText n' x' → n = n' → b!"%{GREEDY" ++ x ++ b!"}" ++ t = b!"%{GREEDY" ++ x' ++ b!"}" ++ t' → t = t' := by
            rintro n' x' t t' hx' rfl h
            have : x = x' := by cases hx <;> cases hx' <;> rfl
            subst this
            exact List.append_cancel_left h
          have hux : Utf8 (b!"%{GREEDY" ++ x ++ b!"}") :=
            utf8_append (utf8_append (ascii_utf8 (by decide)) (ascii_utf8 (nameText_utf8 hx))) (ascii_utf8 (by decide))
          have hus := utf8_after hu hux
          cases hw' : es' with
          | nil => rw [hw'] at ht; cases es with
            | nil => simp [tokens, meant] at ht
            | cons e2 _ => cases e2 <;> simp [tokens, meant] at ht
          | cons e' es2 =>
            rw [hw'] at ht hw
            cases hl with
            | lit raw es s hne hst hl =>
              cases e' with
              | literal => simp [tokens, meant] at ht
              | int => simp [tokens, meant, intParser] at ht
              | set => simp [tokens, meant, setParser] at ht
              | greedy n' =>
                cases es2 with
                | nil => simp [tokens, meant] at ht
                | cons e2 es3 =>
                  cases e2 with
                  | int => simp [tokens, meant] at ht
                  | set => simp [tokens, meant] at ht
                  | greedy => simp [tokens, meant] at ht
                  | literal raw' =>
                    simp only [tokens, meant, List.cons.injEq, Token.parser.injEq, Parser.greedy.injEq, GreedyParser.mk.injEq, Option.some.injEq,
                      Token.literal.injEq] at ht
                    generalize hb : b!"%{GREEDY" ++ x ++ b!"}" ++ (raw ++ s) = t at hw
                    cases hw with
                    | cons _ _ _ s' he hw2 hc =>
                      cases he with
                      | greedy _ x' hx' =>
                        have e1 := same hx' ht.1.1.symm hb
                        cases hw2 with
                        | cons _ _ _ s2 he2 hw3 hc2 =>
                          cases he2 with
                          | literal _ h1 h2 =>
                            obtain ⟨_, rfl, ht⟩ := ht
                            have e2 := List.append_cancel_left e1
                            subst e2
                            refine ⟨h2, ih (by simp at hk; omega) (utf8_after hus (utf8_left_stop hus ?_)) hl hw3 ht⟩
                            simpa using written_stop (rest := []) hw3 (hc2 rfl) (.inl rfl)
            | nil =>
              exact True.intro
            | other e2 es w2 s h1 h2 h3 =>
              have hm : meant (.greedy n :: e2 :: es) = .parser (.greedy { name := n, endString := none }) :: meant (e2 :: es) := by
                cases e2 <;> first | rfl | simp [Elem.isLiteral] at h2
              have hcl : CleanLiterals (.greedy n :: e2 :: es) = CleanLiterals (e2 :: es) := by
                cases e2 <;> first | rfl | simp [Elem.isLiteral] at h2
              rw [hm] at ht
              rw [hcl]
              cases e' with
              | literal => simp [tokens] at ht
              | int => simp [tokens, intParser] at ht
              | set => simp [tokens, setParser] at ht
              | greedy n' =>
                have htk : n = n' ∧ tokens es2 = meant (e2 :: es) := by
                  cases es2 with
                  | nil => simp [tokens] at ht; exact ⟨ht.1.symm, ht.2.symm⟩
                  | cons e3 es3 =>
                    cases e3 with
                    | literal => simp [tokens] at ht
                    | _ => simp only [tokens, List.cons.injEq, Token.parser.injEq, Parser.greedy.injEq, GreedyParser.mk.injEq] at ht ⊢; exact ⟨ht.1.1.symm, ht.2⟩
                generalize hb : b!"%{GREEDY" ++ x ++ b!"}" ++ (w2 ++ s) = t at hw
                cases hw with
                | cons _ _ _ s' he hw2 hc =>
                  cases he with
                  | greedy _ x' hx' =>
                    have e1 := same hx' htk.1 hb
                    subst e1
                    exact ih (by omega) hus (.other _ _ _ _ h1 h2 h3) hw2 htk.2
      · obtain ⟨a, y, hy, rfl, hx⟩ := elem_parser he hn (fun n h => hg ⟨n, h⟩)
        rw [(hx es).2.1] at ht
        rw [(hx es).2.2]
        cases hw' : es' with
        | nil => rw [hw'] at ht; simp [tokens] at ht
        | cons e' es2 =>
          rw [hw'] at ht hw
          generalize hb : b!"%{" ++ (y ++ b!"}") ++ s = t at hw
          cases hw with
          | cons _ _ w' s' he' hw2 hc =>
            have hn' : e'.isLiteral = false := by
              cases e' with
              | literal => simp [tokens] at ht
              | _ => rfl
            have hg' : ∀ n, e' ≠ .greedy n := by
              rintro n rfl
              have ha : ∀ g, a ≠ .greedy g := by
                rcases hy with ⟨cs, os, n, _, rfl⟩ | ⟨os, n, _, rfl⟩ <;> intro g h <;> cases h
              cases es2 with
              | nil => simp only [tokens, List.cons.injEq, Token.parser.injEq] at ht; exact ha _ ht.1.symm
              | cons e3 es3 =>
                cases e3 <;> simp only [tokens, List.cons.injEq, Token.parser.injEq] at ht <;> exact ha _ ht.1.symm
            obtain ⟨a', y', hy', rfl, hx'⟩ := elem_parser he' hn' hg'
            rw [(hx' es2).1] at ht
            have e1 := parser_same hb hu hy hy'
            subst e1
            refine ih (by omega) ?_ hl hw2 (List.cons.inj ht).2
            have := (piece_utf8 (s := s) hy hu)
            exact utf8_after hu this

/-- C89 (partial): a patterndb pattern that stands for some elements is converted to an actiondb pattern that compiles to what is meant, if no literal text
in it contains `%{` or, unless it ends a `GREEDY`, `\%\{`. -/
theorem C89_converted_partial (ps : List PdbPiece) (es : List Elem) (h : PdbPattern ps es) (hne : es ≠ [])
    (hl : CleanLiterals es) :
    ∃ out, p2p (pdbSource ps) = some out ∧ compile (encode out) = .ok (.ok (meant es)) := by
  obtain ⟨ess, h1, rfl⟩ := h
  obtain ⟨w, h2, h3⟩ := p2p_pieces h1
  refine ⟨w, h2, ?_⟩
  rw [← tokens_meant _ hl]
  exact written_compiles (utf8Of_utf8 w) hne (h3.join (clean_begin _ hl))

/-- C89: this is exactly when the conversion keeps the meaning. -/
theorem C89_exactly (ps : List PdbPiece) (es : List Elem) (h : PdbPattern ps es) (hne : es ≠ []) :
    (∃ out, p2p (pdbSource ps) = some out ∧ compile (encode out) = .ok (.ok (meant es))) ↔ CleanLiterals es := by
  refine ⟨?_, C89_converted_partial ps es h hne⟩
  rintro ⟨out, h1, h2⟩
  obtain ⟨ess, h3, rfl⟩ := h
  obtain ⟨w, h4, h5⟩ := p2p_pieces h3
  rw [h1] at h4
  injection h4 with h4
  subst h4
  obtain ⟨es', _, h6, h7⟩ := (compile_ok_iff (utf8Of_utf8 out)).mp h2
  exact loose_clean _ (Nat.le_refl _) (utf8Of_utf8 out) h5.loose h6 h7

/-- C89 (refuted): without the restriction on the literal text the claim is false: `50%{` is copied as it is and does not compile. -/
theorem C89_refuted : ¬ ∀ (ps : List PdbPiece) (es : List Elem), PdbPattern ps es → es ≠ [] →
    ∃ out, p2p (pdbSource ps) = some out ∧ compile (encode out) = .ok (.ok (meant es)) := by
  intro h
  obtain ⟨out, h1, h2⟩ := h [.text "50%{".toList] [.literal b!"50%{"] ⟨[[.literal b!"50%{"]], .cons _ _ _ _ (.text _ (by decide)) .nil, by decide⟩ (by simp)
  have e : p2p (pdbSource [.text "50%{".toList]) = some "50%{".toList := by decide +kernel
  rw [e] at h1
  injection h1 with h1
  subst h1
  have : (match compile (encode "50%{".toList) with | .ok (.ok _) => true | _ => false) = false := by decide +kernel
  rw [h2] at this
  cases this

/-! ### Patterns that are refused -/

theorem fields_append (s rest : Str) : fields true '@' (s ++ '@' :: rest) = fields true '@' s ++ ['@'] :: fields true '@' rest := by
  induction s with
  | nil => simp [fields]
  | cons c s ih =>
    simp only [List.cons_append, fields, ih]
    split
    · simp
    · cases h : fields true '@' s with
      | nil => exact absurd h (fields_ne _ _ _)
      | cons f fs => simp

theorem loop_append_none (a b : List Str) (st : Bool) (out : Str) (h : p2pLoop a st out = none) : p2pLoop (a ++ b) st out = none := by
  induction a generalizing st out with
  | nil => simp [p2pLoop] at h
  | cons f fs ih =>
    simp only [List.cons_append, p2pLoop] at h ⊢
    split
    · rename_i c; rw [if_pos c] at h; exact ih _ _ h
    · rename_i c
      rw [if_neg c] at h
      split
      · rename_i c2
        rw [if_pos c2] at h
        split
        · rename_i s hs
          rw [hs] at h
          simp only at h
          split
          · rename_i c3; rw [if_pos c3] at h; exact ih _ _ h
          · rfl
        · rfl
      · rename_i c2
        rw [if_neg c2] at h
        exact ih _ _ h

theorem dropWhile_nil {p : Str → Bool} (l : List Str) : l.dropWhile p = [] ↔ ∀ y ∈ l, p y = true := by
  induction l with
  | nil => simp
  | cons a l ih =>
    rw [List.dropWhile_cons]
    cases h : p a with
    | true => simp [ih, h]
    | false => simp [h]

theorem dropTrailing_keep (a b : List Str) (x : Str) (hx : x ≠ []) : dropTrailingEmpty (a ++ x :: b) = a ++ x :: dropTrailingEmpty b := by
  unfold dropTrailingEmpty
  have hx' : x.isEmpty = false := by cases x <;> simp_all
  simp only [List.reverse_append, List.reverse_cons, List.append_assoc]
  by_cases hb : ∀ y ∈ b.reverse, y.isEmpty = true
  · rw [List.dropWhile_append_of_pos hb, show b.reverse.dropWhile List.isEmpty = [] from (dropWhile_nil _).mpr hb]
    simp [List.dropWhile_cons, hx']
  · have : b.reverse.dropWhile List.isEmpty ≠ [] := fun e => hb ((dropWhile_nil _).mp e)
    rw [List.dropWhile_append]
    have h2 : (b.reverse.dropWhile List.isEmpty).isEmpty = false := by
      cases h : b.reverse.dropWhile List.isEmpty with
      | nil => exact absurd h this
      | cons => rfl
    rw [h2]
    simp

theorem loop_refuse {spec : Str} (hs : '@' ∉ spec) (hv : ∀ w, validatePattern spec = some w → truthy w = false) (out : Str) (s : Str) :
    p2pLoop (fields true '@' ('@' :: spec ++ '@' :: s)) false out = none ∧ p2pLoop (fields true '@' ('@' :: spec)) false out = none := by
  have n2 : spec ≠ ['@'] := fun e => hs (e ▸ by simp)
  have h2 : p2pLoop (fields true '@' ('@' :: spec)) false out = none := by
    rw [fields_sep, fields_free hs]
    simp only [p2pLoop, unescapePattern]
    simp only [n2, if_false]
    simp
    cases h : validatePattern spec with
    | none => simp
    | some w => simp [hv w h]
  refine ⟨?_, h2⟩
  rw [fields_append]
  exact loop_append_none _ _ _ _ h2

theorem refuse {pre : List PdbPiece} (hp : ∀ p ∈ pre, p.Plain) {spec : Str} (hs : '@' ∉ spec) (hv : ∀ w, validatePattern spec = some w → truthy w = false)
    (rest : Str) : p2p (pdbSource pre ++ '@' :: spec ++ '@' :: rest) = none := by
  have key : ∀ out, p2pLoop (fields true '@' (pdbSource pre ++ '@' :: spec)) false out = none := by
    induction pre with
    | nil => intro out; exact (loop_refuse hs hv out []).2
    | cons p pre ih =>
      intro out
      have ih := ih fun q hq => hp q (by simp [hq])
      have hpp := hp p (by simp)
      cases p with
      | text t =>
        have := loop_text hpp (pdbSource pre ++ '@' :: spec) out
        rw [ih] at this
        simpa [pdbSource, PdbPiece.source] using this
      | parser type args =>
        have hf : '@' ∉ type ++ args.flatMap (fun a => ':' :: a) := by
          rw [List.mem_append]
          rintro (h | h)
          · exact hpp.1 h
          · exact args_free hpp.2 h
        have goal : p2pLoop (fields true '@' ('@' :: (type ++ args.flatMap (fun a => ':' :: a)) ++ '@' :: (pdbSource pre ++ '@' :: spec))) false out = none := by
          by_cases hb : ∃ w, validatePattern (type ++ args.flatMap (fun a => ':' :: a)) = some w ∧ truthy w = true
          · obtain ⟨w, h1, h2⟩ := hb
            rw [loop_parser hf h1 h2, ih]
          · refine (loop_refuse hf (fun w hw => ?_) out _).1
            cases ht : truthy w with
            | false => rfl
            | true => exact absurd ⟨w, hw, ht⟩ hb
        simpa [pdbSource, PdbPiece.source] using goal
  unfold p2p
  have hne : (pdbSource pre ++ '@' :: spec ++ '@' :: rest).isEmpty = false := by cases pdbSource pre <;> simp
  rw [hne, fields_append, dropTrailing_keep _ _ _ (by simp)]
  exact loop_append_none _ _ _ _ (key [])

/-- C90 (refuted): literal text with `@` written `@@` is not converted to that text. -/
theorem C90_refuted : ¬ ∀ s : List Char, s ≠ [] → ¬ b!"%{" <:+: encode s → ¬ b!"\\%\\{" <:+: encode s →
    ∃ out, p2p (pdbEscape s) = some out ∧ compile (encode out) = .ok (.ok [.literal (encode s)]) := by
  intro h
  obtain ⟨out, h1, _⟩ := h "a@b".toList (by decide) (by decide) (by decide)
  have : p2p (pdbEscape "a@b".toList) = none := by decide +kernel
  rw [this] at h1
  cases h1

/-- C90 (partial): a pattern in which the first unusual `@` is an escaped `@@` is refused as a whole: it is never converted to something else. -/
theorem C90_escape_partial (pre : List PdbPiece) (hp : ∀ p ∈ pre, p.Plain) (rest : List Char) : p2p (pdbSource pre ++ "@@".toList ++ rest) = none := by
  have := refuse hp (spec := []) (by simp) (by decide) rest
  simpa using this

theorem contains_iff {w s : Str} : contains w s = true ↔ w <:+: s := by
  induction s with
  | nil =>
    cases w with
    | nil => simp [contains]
    | cons a w => simp [contains]
  | cons c s ih =>
    unfold contains
    rw [Bool.or_eq_true, ih, List.isPrefixOf_iff_prefix, List.infix_cons_iff]

theorem isWord_iff {w s : Str} : isWord w s = true ↔ s = w ∨ s = w ++ ['\n'] := by simp [isWord]

theorem startsWith_iff {w s : Str} : startsWith w s = true ↔ w <+: s := by simp [startsWith]

theorem endsWith_iff {w s : Str} : endsWith w s = true ↔ w <:+ s ∨ w ++ ['\n'] <:+ s := by simp [endsWith]

theorem truthy_long {s : Str} (h : 2 ≤ s.length) : truthy s = true := by
  match s, h with
  | a :: b :: s, _ => simp [truthy]

theorem dispatch_known (arg type key opt : Str) :
    (∃ w, dispatch arg type key opt = some w ∧ truthy w = true) ↔ PdbKnown type := by
  have e1 : ∀ w s : Str, isWord w s = decide (s = w ∨ s = w ++ ['\n']) := fun w s => by rw [Bool.eq_iff_iff, isWord_iff, decide_eq_true_iff]
  unfold dispatch
  by_cases h0 : isWord [] type = true
  · rw [if_pos h0]
    simp only [Option.some.injEq, exists_eq_left']
    rw [isWord_iff] at h0
    refine iff_of_false (by decide) ?_
    rcases h0 with rfl | rfl <;> decide
  rw [if_neg h0]
  by_cases h1 : isWord "ESTRING".toList type = true
  · rw [if_pos h1]
    exact iff_of_true ⟨_, rfl, truthy_long (by simp)⟩ (.inl ⟨_, by simp, isWord_iff.mp h1⟩)
  rw [if_neg h1]
  by_cases h2 : contains "QSTRING".toList type = true
  · rw [if_pos h2]
    exact iff_of_true ⟨_, rfl, truthy_long (by simp; omega)⟩ (.inr (.inr (.inr (.inr (contains_iff.mp h2)))))
  rw [if_neg h2]
  by_cases h3 : isWord "NUMBER".toList type = true
  · rw [if_pos h3]
    exact iff_of_true ⟨_, rfl, truthy_long (by simp)⟩ (.inl ⟨_, by simp, isWord_iff.mp h3⟩)
  rw [if_neg h3]
  by_cases h4 : isWord "HOSTNAME".toList type = true
  · rw [if_pos h4]
    exact iff_of_true ⟨_, rfl, truthy_long (by simp)⟩ (.inl ⟨_, by simp, isWord_iff.mp h4⟩)
  rw [if_neg h4]
  by_cases h5 : (startsWith "FLOAT".toList type || endsWith "DOUBLE".toList type) = true
  · rw [if_pos h5]
    refine iff_of_true ⟨_, rfl, truthy_long (by simp)⟩ ?_
    rcases Bool.or_eq_true _ _ ▸ h5 with h | h
    · exact .inr (.inl ⟨_, by simp, startsWith_iff.mp h⟩)
    · exact .inr (.inr ((endsWith_iff.mp h).imp_right .inl))
  rw [if_neg h5]
  by_cases h6 : isWord "STRING".toList type = true
  · rw [if_pos h6]
    refine iff_of_true ?_ (.inl ⟨_, by simp, isWord_iff.mp h6⟩)
    split <;> exact ⟨_, rfl, truthy_long (by simp)⟩
  rw [if_neg h6]
  by_cases h7 : isWord "PCRE".toList type = true
  · rw [if_pos h7]
    refine iff_of_false (by simp) ?_
    rcases isWord_iff.mp h7 with rfl | rfl <;> decide
  rw [if_neg h7]
  by_cases h8 : isWord "ANYSTRING".toList type = true
  · rw [if_pos h8]
    exact iff_of_true ⟨_, rfl, truthy_long (by simp)⟩ (.inl ⟨_, by simp, isWord_iff.mp h8⟩)
  rw [if_neg h8]
  by_cases h9 : isWord "SET".toList type = true
  · rw [if_pos h9]
    exact iff_of_true ⟨_, rfl, truthy_long (by simp)⟩ (.inl ⟨_, by simp, isWord_iff.mp h9⟩)
  rw [if_neg h9]
  by_cases h10 : (startsWith "IPvANY".toList type || startsWith "MACADDR".toList type || startsWith "IPv4".toList type || startsWith "LLADDR".toList type) = true
  · rw [if_pos h10]
    refine iff_of_true ⟨_, rfl, truthy_long (by simp)⟩ ?_
    simp only [Bool.or_eq_true, startsWith_iff] at h10
    rcases h10 with ((h | h) | h) | h <;> exact .inr (.inl ⟨_, by simp, h⟩)
  rw [if_neg h10]
  refine iff_of_false (by simp) ?_
  simp only [Bool.or_eq_true, startsWith_iff, endsWith_iff, not_or] at h5 h10
  rw [isWord_iff] at h1 h3 h4 h6 h8 h9
  rw [contains_iff] at h2
  rintro (⟨w, hw, h⟩ | ⟨w, hw, h⟩ | h | h | h)
  · simp only [List.mem_cons, List.not_mem_nil, or_false] at hw
    rcases hw with rfl | rfl | rfl | rfl | rfl | rfl
    · exact h1 h
    · exact h3 h
    · exact h4 h
    · exact h6 h
    · exact h8 h
    · exact h9 h
  · simp only [List.mem_cons, List.not_mem_nil, or_false] at hw
    rcases hw with rfl | rfl | rfl | rfl | rfl
    · exact h5.1 h
    · exact h10.1.1.1 h
    · exact h10.1.1.2 h
    · exact h10.1.2 h
    · exact h10.2 h
  · exact h5.2.1 h
  · exact h5.2.2 h
  · exact h2 h

/-- What is made of a parser. -/
theorem validate_known (type : Str) (args : List Str) (ht : ':' ∉ type) (ha : ∀ a ∈ args, ':' ∉ a) :
    (∃ w, validatePattern (type ++ args.flatMap (fun a => ':' :: a)) = some w ∧ truthy w = true) ↔ PdbKnown type := by
  by_cases hn : truthy type = true
  · rw [validate_dispatch type args ht hn ha]
    exact dispatch_known _ _ _ _
  · have hk : ¬ PdbKnown type := by
      simp [truthy] at hn
      by_cases h : type = []
      · subst h; decide
      · rw [hn h]; decide
    refine iff_of_false ?_ hk
    have : validatePattern (type ++ args.flatMap (fun a => ':' :: a)) = some [] := by
      have e : (if ((if (type ++ args.flatMap (fun a => ':' :: a)).isEmpty then [] else
          fields false ':' (type ++ args.flatMap (fun a => ':' :: a)))[0]?.getD [] |> truthy) then
          ((if (type ++ args.flatMap (fun a => ':' :: a)).isEmpty then [] else
            fields false ':' (type ++ args.flatMap (fun a => ':' :: a)))[0]?.getD []) else []) = ([] : Str) := by
        split
        · rfl
        · rw [spec_fields type args ht ha]
          exact if_neg hn
      unfold validatePattern
      simp only [e]
      rfl
    rw [this]
    rintro ⟨w, hw, h⟩
    cases hw
    cases h

/-- C91: a pattern with a parser that actiondb has nothing for is refused as a whole, whatever is around it. -/
theorem C91_unsupported (pre : List PdbPiece) (hp : ∀ p ∈ pre, p.Plain) (type : List Char) (ht : PdbUnsupported type) (args : List (List Char))
    (ha : ∀ a ∈ args, '@' ∉ a ∧ ':' ∉ a) (rest : List Char) : p2p (pdbSource pre ++ (PdbPiece.parser type args).source ++ rest) = none := by
  have hv := mt (validate_known type args ht.2.1 fun a h => (ha a h).2).mp ht.2.2
  have := refuse hp (spec := type ++ args.flatMap (fun a => ':' :: a)) (by
    rw [List.mem_append]
    rintro (h | h)
    · exact ht.1 h
    · exact args_free (fun a h => (ha a h).1) h) (fun w hw => by
      cases h : truthy w with
      | false => rfl
      | true => exact absurd ⟨w, hw, h⟩ hv) rest
  simpa [PdbPiece.source] using this

/-- C91: the parsers that are refused are exactly these: a pattern of only one parser is converted if and only if the parser is a known one. -/
theorem C91_exactly (type : List Char) (h1 : '@' ∉ type) (h2 : ':' ∉ type) (args : List (List Char)) (ha : ∀ a ∈ args, '@' ∉ a ∧ ':' ∉ a) :
    (∃ out, p2p (PdbPiece.parser type args).source = some out) ↔ PdbKnown type := by
  by_cases hk : PdbKnown type
  · refine iff_of_true ?_ hk
    obtain ⟨w, hw, ht⟩ := (validate_known type args h2 fun a h => (ha a h).2).mpr hk
    have hf : '@' ∉ type ++ args.flatMap (fun a => ':' :: a) := by
      rw [List.mem_append]
      rintro (h | h)
      · exact h1 h
      · exact args_free (fun a h => (ha a h).1) h
    refine ⟨w, ?_⟩
    have := loop_parser hf hw ht [] []
    unfold p2p
    rw [show (PdbPiece.parser type args).source = '@' :: (type ++ args.flatMap (fun a => ':' :: a)) ++ '@' :: [] from rfl]
    refine loop_trailing _ _ _ _ ?_
    rw [this]
    simp [fields, p2pLoop, unescapePattern, replaceAts]
  · refine iff_of_false ?_ hk
    rintro ⟨out, h⟩
    have := C91_unsupported [] (by simp) type ⟨h1, h2, hk⟩ args ha []
    rw [show pdbSource [] = [] from rfl, List.nil_append, List.append_nil, h] at this
    cases this

example : ∀ type ∈ ["PCRE".toList, "IPv6".toList, "EMAIL".toList, "NLSTRING".toList, "OPTIONALSET".toList, "XESTRING".toList, "number".toList, []],
    PdbUnsupported type := by decide +kernel

/-! ### A pattern from a patterndb -/

/-- `a @NUMBER:x@: @ESTRING:foo::@ b@QSTRING:q:()@@SET:s:xy@@STRING::-@@ANYSTRING:rest@` -/
def samplePdb : List PdbPiece :=
  [.text "a ".toList, .parser "NUMBER".toList ["x".toList], .text ": ".toList, .parser "ESTRING".toList ["foo".toList, [], []], .text " b".toList,
   .parser "QSTRING".toList ["q".toList, "()".toList], .parser "SET".toList ["s".toList, "xy".toList], .parser "STRING".toList [[], "-".toList],
   .parser "ANYSTRING".toList ["rest".toList]]

/-- What the parts of `samplePdb` stand for. -/
def sampleElems : List (List Elem) :=
  [[.literal b!"a "], [.int [] (some b!"x")], [.literal b!": "], [.greedy (some b!"foo"), .literal b!":"], [.literal b!" b"],
   [.literal b!"(", .greedy (some b!"q"), .literal b!")"], [.set b!"xy" [] (some b!"s")], [.set (pdbAlnum ++ b!"-") [] (some b!"pdb2adb2ignore")],
   [.greedy (some b!"rest")]]

theorem sample_name {n : List Char} {c : UInt8} {t : Bytes} (e : encode n = c :: t) (h : (97 ≤ c.toNat ∧ c.toNat ≤ 122) ∧ ∀ x ∈ t, 97 ≤ x.toNat ∧ x.toNat ≤ 122)
    (more : List Str) : PdbName (n :: more) (encode n) := by
  refine .inl ⟨n, rfl, ?_, rfl⟩
  rw [e]
  refine .mk c t (.inl h.1) (fun x hx => .inl (.inl (h.2 x hx))) fun x hx e => ?_
  have := (h.2 x (List.mem_of_mem_tail hx)).1
  rw [e] at this
  exact absurd this (by decide)

theorem sample_means : Each PdbPieceMeans samplePdb sampleElems := by
  refine .cons _ _ _ _ (.text _ (by decide)) <| .cons _ _ _ _ (.parser _ _ _ (.number _ _ (sample_name (n := "x".toList) rfl (by decide) _)) (by decide)) <|
    .cons _ _ _ _ (.text _ (by decide)) <|
    .cons _ _ _ _ (.parser _ _ _ (.colon _ _ (sample_name (n := "foo".toList) rfl (by decide) _)) (by decide)) <|
    .cons _ _ _ _ (.text _ (by decide)) <|
    .cons _ _ _ _ (.parser _ _ _ (.bracketed _ '(' ')' _ (sample_name (n := "q".toList) rfl (by decide) _)) (by decide)) <|
    .cons _ _ _ _ (.parser _ _ _ (.set _ "xy".toList _ (sample_name (n := "s".toList) rfl (by decide) _) (by decide) (by decide)) (by decide)) <|
    .cons _ _ _ _ (.parser _ _ _ (.stringWith [] "-".toList _ (.inr ⟨.inr rfl, rfl⟩) (by decide) (by decide)) (by decide)) <|
    .cons _ _ _ _ (.parser _ _ _ (.rest _ _ _ (sample_name (n := "rest".toList) rfl (by decide) _) (by decide)) (by decide)) .nil

example : ∃ out, p2p (pdbSource samplePdb) = some out ∧ compile (encode out) = .ok (.ok (meant (joinLiterals sampleElems.flatten))) :=
  C89_converted_partial samplePdb _ ⟨_, sample_means, rfl⟩ (by decide) (by
    have e : joinLiterals sampleElems.flatten = [.literal b!"a ", .int [] (some b!"x"), .literal b!": ", .greedy (some b!"foo"), .literal b!": b(",
      .greedy (some b!"q"), .literal b!")", .set b!"xy" [] (some b!"s"), .set (pdbAlnum ++ b!"-") [] (some b!"pdb2adb2ignore"),
      .greedy (some b!"rest")] := by decide
    rw [e]
    simp only [CleanLiterals]
    decide)

example : p2p "a @NUMBER:x@: @ESTRING:foo::@ b@QSTRING:q:()@@ANYSTRING:rest@".toList =
    some "a %{INT:x}: %{GREEDY:foo}: b(%{GREEDY:q})%{GREEDY:rest}".toList := by decide +kernel

example : p2p "mail from @@@EMAIL:x@".toList = none := C90_escape_partial [.text "mail from ".toList] (by simp [PdbPiece.Plain]) "@EMAIL:x@".toList

example : p2p "from @IPv4:ip@ to @IPv6:ip6@, done".toList = none :=
  C91_unsupported [.text "from ".toList, .parser "IPv4".toList ["ip".toList], .text " to ".toList] (by simp [PdbPiece.Plain]) "IPv6".toList (by decide)
    ["ip6".toList] (by decide) ", done".toList

end Verif
