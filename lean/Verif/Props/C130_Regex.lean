import Verif.Spec.Regex
import Verif.Spec.Extension
import Verif.Props.C111_AnyScript
import Verif.Props.C113_Extension
/-! C130: a pattern and the regular expression it stands for. -/
namespace Verif
open Spec

namespace Regex

theorem AllApart.tail {t : Token} {ts : List Token} (h : AllApart (t :: ts)) : AllApart ts :=
  fun b x y a e => h (t :: b) x y a (by rw [e]; rfl)

theorem EndsOnce.tail {t : Token} {ts : List Token} {v x : Bytes} (h : EndsOnce (t :: ts) (v ++ x)) : EndsOnce ts x := by
  intro b g e a he u w u' w' h1 h2
  exact List.append_cancel_left (h (t :: b) g e a (by rw [he]; rfl) (v ++ u) w (v ++ u') w' (by rw [h1]; simp) (by rw [h2]; simp))

theorem accepts_of_match {p : SetParser} {text v : Bytes} (h : SetMatch p.characterSet p.minLength p.maxLength text v) :
    (Regexp.chars p.characterSet (max 1 (p.minLength.getD 1)) p.maxLength).Accepts v := by
  refine ⟨h.inSet, ?_, h.atMost⟩
  have h1 : 1 ≤ v.length := List.length_pos_iff.mpr h.nonempty
  cases hm : p.minLength with
  | none => simpa using h1
  | some n => have := h.atLeast n hm; simp; omega

theorem match_of_accepts {p : SetParser} {v x : Bytes} (h : (Regexp.chars p.characterSet (max 1 (p.minLength.getD 1)) p.maxLength).Accepts v)
    (hx : ∀ c r, x = c :: r → c ∉ p.characterSet) : SetMatch p.characterSet p.minLength p.maxLength (v ++ x) v := by
  obtain ⟨h1, h2, h3⟩ := h
  refine ⟨List.prefix_append _ _, ?_, h1, fun b r e => hx b r (List.append_cancel_left e), ?_, h3⟩
  · rintro rfl; simp at h2
  · intro n hn; rw [hn] at h2; simp at h2; omega

/-- What actiondb reads, the regular expression reads too. -/
theorem reads_of_matches {ts : List Token} {x : Bytes} {caps : List (Parser × Bytes)} (h : Matches ts x caps) : RegexReads ts x caps := by
  induction h with
  | nil => exact .nil
  | literal l toks x caps _ ih => exact .literal l l toks x caps rfl ih
  | parser a toks v x caps hv _ ih =>
    refine .parser a v toks x caps ?_ ih
    cases a with
    | set p => exact accepts_of_match hv
    | int p => exact accepts_of_match hv
    | greedy g => trivial

/-- The text of tokens that stand apart from a SET does not begin with one of its characters. -/
theorem begins {p : SetParser} {ts : List Token} {x : Bytes} {caps : List (Parser × Bytes)} (hr : RegexReads ts x caps) (hne : Token.literal [] ∉ ts)
    (ha : ∀ u ∈ ts.head?, Apart (.parser (.set p)) u) : ∀ c r, x = c :: r → c ∉ p.characterSet := by
  intro c r hx
  have hset : ∀ {q : SetParser} {v y : Bytes}, (∀ c ∈ q.characterSet, c ∉ p.characterSet) →
      (Regexp.chars q.characterSet (max 1 (q.minLength.getD 1)) q.maxLength).Accepts v → v ++ y = c :: r → c ∉ p.characterSet := by
    intro q v y hq hv e
    cases v with
    | nil => have := hv.2.1; simp at this
    | cons d v =>
      simp at e
      exact hq c (hv.1 c (by simp [e.1]))
  cases hr with
  | nil => simp at hx
  | literal l v toks y _ hv _ =>
    have hv : v = l := hv
    subst hv
    cases v with
    | nil => simp at hne
    | cons d l =>
      simp at hx
      exact ha _ rfl c (by simp [hx.1])
  | parser a v toks y caps hv _ =>
    cases a with
    | set q => exact hset (ha _ rfl) hv hx
    | int q => exact hset (ha _ rfl) hv hx
    | greedy g => exact (ha _ rfl).elim

theorem matches_of_reads {ts : List Token} {x : Bytes} {caps : List (Parser × Bytes)} (h : RegexReads ts x caps) (hs : CompiledShape ts)
    (ha : AllApart ts) (ho : EndsOnce ts x) : Matches ts x caps := by
  induction h with
  | nil => exact .nil
  | literal l v toks x caps hv _ ih =>
    have hv : v = l := hv
    subst hv
    exact .literal v toks x caps (ih hs.tail (AllApart.tail ha) (EndsOnce.tail ho))
  | parser a v toks x caps hv hr ih =>
    refine .parser a toks v x caps ?_ (ih hs.tail (AllApart.tail ha) (EndsOnce.tail ho))
    have hnext : ∀ u ∈ toks.head?, Apart (.parser a) u := by
      intro u hu
      cases toks with
      | nil => simp at hu
      | cons w ts => simp at hu; subst hu; exact ha [] _ _ ts rfl
    cases a with
    | set p => exact match_of_accepts hv (begins hr hs.tail.lits hnext)
    | int p => exact match_of_accepts hv (begins (p := p) hr hs.tail.lits hnext)
    | greedy g =>
      cases hr with
      | nil =>
        have he : g.endString = none := by
          cases hg : g.endString with
          | none => rfl
          | some e => obtain ⟨post, h⟩ := (hs.greedy [] g [] rfl e).mp hg; simp at h
        simp [ParserMatch, he]
      | literal l w toks y _ hw _ =>
        have hw : w = l := hw
        subst hw
        have he : g.endString = some w := (hs.greedy [] g _ rfl w).mpr ⟨_, rfl⟩
        simp only [ParserMatch, he]
        refine ⟨⟨y, by simp⟩, fun v' r' e => ?_⟩
        rw [ho [] g w toks rfl v y v' r' (by simp) e]
        exact Nat.le_refl _
      | parser b w toks y caps _ _ =>
        obtain ⟨e, h⟩ := hnext _ rfl
        simp at h

theorem reads_append {ts us : List Token} {x y : Bytes} {c d : List (Parser × Bytes)} (h : RegexReads ts x c) (h' : RegexReads us y d) :
    RegexReads (ts ++ us) (x ++ y) (c ++ d) := by
  induction h with
  | nil => exact h'
  | literal l v toks x caps hv _ ih => rw [List.append_assoc]; exact .literal l v _ _ _ hv ih
  | parser a v toks x caps hv _ ih => rw [List.append_assoc]; exact .parser a v _ _ _ hv ih

/-- A match with given groups, from the middle of the pattern on. -/
theorem matches_rest {ts us : List Token} {x y : Bytes} {c d : List (Parser × Bytes)} (h : RegexReads ts x c)
    (hm : Matches (ts ++ us) (x ++ y) (c ++ d)) : Matches us y d := by
  induction h with
  | nil => exact hm
  | literal l v toks x caps hv _ ih =>
    have hv : v = l := hv
    subst hv
    obtain ⟨z, h1, h2⟩ := matches_literal_inv hm
    rw [List.append_assoc] at h1
    exact ih (List.append_cancel_left h1 ▸ h2)
  | parser a v toks x caps hv _ ih =>
    obtain ⟨w, z, cs, h1, h2, -, h3⟩ := matches_parser_inv hm
    simp at h2
    obtain ⟨rfl, rfl⟩ := h2
    rw [List.append_assoc] at h1
    exact ih (List.append_cancel_left h1 ▸ h3)

/-- A text of a possible SET that begins with a given character of the set. -/
theorem set_reads {p : SetParser} (hp : Possible (.parser (.set p))) (ha : Ascii p.characterSet) {c : UInt8} (hc : c ∈ p.characterSet) :
    ∃ v, Ascii (c :: v) ∧ (Regexp.chars p.characterSet (max 1 (p.minLength.getD 1)) p.maxLength).Accepts (c :: v) := by
  obtain ⟨n, hn⟩ := set_value hp hc (x := []) (by simp)
  refine ⟨List.replicate n c, ?_, accepts_of_match hn⟩
  intro b hb
  rw [show c :: List.replicate n c = List.replicate (n + 1) c from rfl] at hb
  rw [List.eq_of_mem_replicate hb]; exact ha c hc

theorem ascii_append {x y : Bytes} (hx : Ascii x) (hy : Ascii y) : Ascii (x ++ y) := by
  intro b hb
  rcases List.mem_append.mp hb with h | h
  · exact hx b h
  · exact hy b h

theorem literal_reads (l : Bytes) : RegexReads [.literal l] l [] := by
  have := RegexReads.literal l l [] [] [] rfl .nil; rwa [List.append_nil] at this

theorem parser_reads {a : Parser} {v : Bytes} (h : (regexOf (.parser a)).Accepts v) : RegexReads [.parser a] v [(a, v)] := by
  have := RegexReads.parser a v [] [] [] h .nil; rwa [List.append_nil] at this

/-- Conditions on the tokens of an ASCII pattern string. -/
structure Plain (ts : List Token) : Prop where
  possible : ∀ t ∈ ts, Possible t
  lits : ∀ l, Token.literal l ∈ ts → Ascii l
  sets : ∀ p : SetParser, Token.parser (.set p) ∈ ts ∨ Token.parser (.int p) ∈ ts → Ascii p.characterSet

theorem Plain.sub {ts us : List Token} (h : Plain ts) (hs : ∀ t ∈ us, t ∈ ts) : Plain us :=
  ⟨fun t ht => h.possible t (hs t ht), fun l hl => h.lits l (hs _ hl), fun p hp => h.sets p (hp.imp (hs _) (hs _))⟩

theorem set_char {p : SetParser} (hp : Possible (.parser (.set p))) : ∃ c, c ∈ p.characterSet := by
  cases hc : p.characterSet with
  | nil => exact absurd hc hp.1
  | cons c cs => exact ⟨c, by simp⟩

/-- Possible tokens have a text. -/
theorem list_reads {ts : List Token} (h : Plain ts) : ∃ x caps, Ascii x ∧ RegexReads ts x caps := by
  induction ts with
  | nil => exact ⟨[], [], by decide, .nil⟩
  | cons t ts ih =>
    obtain ⟨x, caps, h1, h2⟩ := ih (h.sub fun t ht => List.mem_cons_of_mem _ ht)
    cases t with
    | literal l => exact ⟨l ++ x, caps, ascii_append (h.lits l (by simp)) h1, .literal l l ts x caps rfl h2⟩
    | parser a =>
      cases a with
      | set p =>
        obtain ⟨c, hc⟩ := set_char (h.possible _ (by simp) : Possible (.parser (.set p)))
        obtain ⟨v, h3, h4⟩ := set_reads (h.possible _ (by simp) : Possible (.parser (.set p))) (h.sets p (by simp)) hc
        exact ⟨_, _, ascii_append h3 h1, .parser (.set p) _ ts x caps h4 h2⟩
      | int p =>
        have hp : Possible (.parser (.set p)) := (h.possible (.parser (.int p)) (by simp) :)
        obtain ⟨c, hc⟩ := set_char hp
        obtain ⟨v, h3, h4⟩ := set_reads hp (h.sets p (by simp)) hc
        exact ⟨_, _, ascii_append h3 h1, .parser (.int p) _ ts x caps h4 h2⟩
      | greedy g => exact ⟨_, _, h1, .parser (.greedy g) [] ts x caps trivial h2⟩

/-- The texts of two neighbours can be chosen. -/
theorem choose {pre post : List Token} {a b : Token} (hp : Plain (pre ++ a :: b :: post))
    (hall : ∀ x caps, Ascii x → RegexReads (pre ++ a :: b :: post) x caps → Matches (pre ++ a :: b :: post) x caps)
    {v w : Bytes} {cv cw : List (Parser × Bytes)} (hv : RegexReads [a] v cv) (hw : RegexReads [b] w cw) (av : Ascii v) (aw : Ascii w) :
    ∃ y c, Matches (a :: b :: post) (v ++ (w ++ y)) (cv ++ c) := by
  obtain ⟨x, cx, h1, h2⟩ := list_reads (hp.sub (us := pre) fun t ht => List.mem_append_left _ ht)
  obtain ⟨y, cy, h3, h4⟩ := list_reads (hp.sub (us := post) fun t ht => by simp [ht])
  exact ⟨y, cw ++ cy, matches_rest h2 (hall _ _ (ascii_append h1 (ascii_append av (ascii_append aw h3)))
    (reads_append h2 (reads_append (us := b :: post) hv (reads_append (us := post) hw h4))))⟩

theorem choose_set {pre post : List Token} {a : Parser} {p : SetParser} (hpa : a = .set p ∨ a = .int p) {b : Token} (hp : Plain (pre ++ .parser a :: b :: post))
    (hall : ∀ x caps, Ascii x → RegexReads (pre ++ .parser a :: b :: post) x caps → Matches (pre ++ .parser a :: b :: post) x caps)
    {c : UInt8} {w : Bytes} {cw : List (Parser × Bytes)} (hw : RegexReads [b] (c :: w) cw) (aw : Ascii (c :: w)) : c ∉ p.characterSet := by
  have hposs : Possible (.parser (.set p)) := by
    have := hp.possible (.parser a) (by simp)
    rcases hpa with rfl | rfl <;> exact this
  obtain ⟨d, hd⟩ := set_char hposs
  obtain ⟨v, h1, h2⟩ := set_reads hposs (hp.sets p (by rcases hpa with rfl | rfl <;> simp)) hd
  have h3 : RegexReads [.parser a] (d :: v) [(a, d :: v)] := parser_reads (by rcases hpa with rfl | rfl <;> exact h2)
  obtain ⟨y, cs, hm⟩ := choose hp hall h3 hw h1 aw
  obtain ⟨u, z, cs', e1, e2, h4, -⟩ := matches_parser_inv hm
  simp only [List.cons_append, List.nil_append, List.cons.injEq, Prod.mk.injEq, true_and] at e2
  obtain ⟨rfl, rfl⟩ := e2
  have e1 : w = w := rfl
  have hz : z = c :: (w ++ y) := (List.append_cancel_left (as := d :: v) ‹_›).symm
  subst hz
  have h5 : SetMatch p.characterSet p.minLength p.maxLength (d :: v ++ c :: (w ++ y)) (d :: v) := by rcases hpa with rfl | rfl <;> exact h4
  exact setMatch_next h5 rfl

theorem apart_set {pre post : List Token} {a : Parser} {p : SetParser} (hpa : a = .set p ∨ a = .int p) {b : Token} (hp : Plain (pre ++ .parser a :: b :: post))
    (hall : ∀ x caps, Ascii x → RegexReads (pre ++ .parser a :: b :: post) x caps → Matches (pre ++ .parser a :: b :: post) x caps) :
    Apart (.parser (.set p)) b := by
  have hb : ∀ t, t = b → Possible t := fun t e => hp.possible t (by simp [e])
  cases b with
  | literal l =>
    intro c hc
    cases l with
    | nil => simp at hc
    | cons d l =>
      simp at hc; subst hc
      exact choose_set hpa hp hall (literal_reads _) (hp.lits _ (by simp))
  | parser b =>
    cases b with
    | set q =>
      intro c hc
      obtain ⟨v, h1, h2⟩ := set_reads (hb _ rfl) (hp.sets q (by simp)) hc
      exact choose_set hpa hp hall (parser_reads (a := .set q) h2) h1
    | int q =>
      intro c hc
      obtain ⟨v, h1, h2⟩ := set_reads (hb (.parser (.int q)) rfl :) (hp.sets q (by simp)) hc
      exact choose_set hpa hp hall (parser_reads (a := .int q) h2) h1
    | greedy g =>
      have hposs : Possible (.parser (.set p)) := by
        have := hp.possible (.parser a) (by simp)
        rcases hpa with rfl | rfl <;> exact this
      obtain ⟨c, hc⟩ := set_char hposs
      have hac : Ascii p.characterSet := hp.sets p (by rcases hpa with rfl | rfl <;> simp)
      exact absurd hc (choose_set hpa hp hall (parser_reads (a := .greedy g) (v := [c]) trivial) (by intro b hb; simp at hb; subst hb; exact hac b hc))

/-- A GREEDY with something behind it does not take what it likes. -/
theorem apart_greedy {pre post : List Token} {g : GreedyParser} {b : Parser} (hs : CompiledShape (pre ++ .parser (.greedy g) :: .parser b :: post))
    (hp : Plain (pre ++ .parser (.greedy g) :: .parser b :: post))
    (hall : ∀ x caps, Ascii x → RegexReads (pre ++ .parser (.greedy g) :: .parser b :: post) x caps →
      Matches (pre ++ .parser (.greedy g) :: .parser b :: post) x caps) : False := by
  have he : g.endString = none := by
    cases hg : g.endString with
    | none => rfl
    | some e => obtain ⟨post, h⟩ := (hs.greedy pre g _ rfl e).mp hg; simp at h
  have hb : ∃ c w, Ascii (c :: w) ∧ (regexOf (.parser b)).Accepts (c :: w) := by
    have hposs := hp.possible (.parser b) (by simp)
    cases b with
    | set q =>
      obtain ⟨c, hc⟩ := set_char hposs
      exact ⟨c, set_reads hposs (hp.sets q (by simp)) hc⟩
    | int q =>
      have hposs : Possible (.parser (.set q)) := (hposs :)
      obtain ⟨c, hc⟩ := set_char hposs
      exact ⟨c, set_reads hposs (hp.sets q (by simp)) hc⟩
    | greedy h => exact ⟨97, [], by decide, trivial⟩
  obtain ⟨c, w, h1, h2⟩ := hb
  obtain ⟨y, cs, hm⟩ := choose hp hall (parser_reads (a := .greedy g) (v := []) trivial) (parser_reads h2) (by decide) h1
  obtain ⟨u, z, cs', e1, e2, h4, -⟩ := matches_parser_inv hm
  simp only [List.cons_append, List.nil_append, List.cons.injEq, Prod.mk.injEq, true_and] at e2
  obtain ⟨rfl, rfl⟩ := e2
  simp only [ParserMatch, he, List.nil_append] at h4
  rw [← h4] at e1
  simp at e1

theorem greedy_last {pre post : List Token} {g : GreedyParser} {e : Bytes} (hs : CompiledShape (pre ++ .parser (.greedy g) :: .literal e :: post))
    (hp : Plain (pre ++ .parser (.greedy g) :: .literal e :: post))
    (hall : ∀ x caps, Ascii x → RegexReads (pre ++ .parser (.greedy g) :: .literal e :: post) x caps →
      Matches (pre ++ .parser (.greedy g) :: .literal e :: post) x caps) : False := by
  have he : g.endString = some e := (hs.greedy pre g _ rfl e).mpr ⟨post, rfl⟩
  have hne : e ≠ [] := by rintro rfl; exact hs.lits (by simp)
  have ha : Ascii e := hp.lits e (by simp)
  obtain ⟨y, cs, hm⟩ := choose hp hall (parser_reads (a := .greedy g) (v := e) trivial) (literal_reads e) ha ha
  obtain ⟨u, z, cs', e1, e2, h4, -⟩ := matches_parser_inv hm
  simp only [List.cons_append, List.nil_append, List.cons.injEq, Prod.mk.injEq, true_and] at e2
  obtain ⟨rfl, rfl⟩ := e2
  simp only [ParserMatch, he] at h4
  have := h4.2 [] z (by simp)
  simp at this
  exact hne this

theorem exactly {ts : List Token} (hs : CompiledShape ts) (hp : Plain ts) :
    (∀ x caps, Ascii x → RegexReads ts x caps → Matches ts x caps) ↔ AllApart ts ∧ GreedyLast ts := by
  constructor
  · intro hall
    have hap : AllApart ts := by
      rintro pre a b post rfl
      cases a with
      | literal l => trivial
      | parser a =>
        cases a with
        | set p => exact apart_set (.inl rfl) hp hall
        | int p => exact apart_set (.inr rfl) hp hall
        | greedy g =>
          cases b with
          | literal e => exact ⟨e, rfl⟩
          | parser b => exact (apart_greedy hs hp hall).elim
    refine ⟨hap, ?_⟩
    rintro pre g post rfl
    cases post with
    | nil => rfl
    | cons b post =>
      obtain ⟨e, rfl⟩ := hap pre (.parser (.greedy g)) b post rfl
      exact (greedy_last hs hp hall).elim
  · rintro ⟨h1, h2⟩ x caps _ hr
    refine matches_of_reads hr hs h1 ?_
    intro before g e after he
    have := h2 before g _ he
    simp at this

/-- If the last part of a text is empty, it belongs to a GREEDY. -/
theorem lastPiece_ne {ts : List Token} {x : Bytes} {caps : List (Parser × Bytes)} (h : Matches ts x caps) (hs : CompiledShape ts) (hne : ts ≠ [])
    (hg : ∀ g, ts.getLast? = some (.parser (.greedy g)) → lastPiece ts caps ≠ []) : lastPiece ts caps ≠ [] := by
  induction h with
  | nil => simp at hne
  | literal l toks x caps h ih =>
    cases toks with
    | nil =>
      simp [lastPiece]
      rintro rfl
      exact hs.lits (by simp)
    | cons u ts =>
      have e := (lastPiece_cons (t := .literal l) h (.set ⟨none, [], none, none⟩, [])).1
      rw [e] at hg ⊢
      exact ih hs.tail (by simp) (by simpa using hg)
  | parser a toks v x caps hv h ih =>
    cases toks with
    | nil =>
      cases h
      cases a with
      | set p => simpa [lastPiece] using hv.nonempty
      | int p => simpa [lastPiece] using SetMatch.nonempty hv
      | greedy g => exact hg g rfl
    | cons u ts =>
      rw [(lastPiece_cons h _).2] at hg ⊢
      exact ih hs.tail (by simp) (by simpa using hg)

end Regex

/-- C130: whatever a trie answers, the regular expression of the reported pattern matches the text, and its groups are the values of the answer. -/
theorem C130_reads (sip : Bytes → UInt64) (ps : List Pattern) (hu : ∀ p ∈ ps, Utf8Lits p) (hcol : NoCollision sip ps)
    (t : SuffixTree) (hb : SuffixTree.build sip ps = .ok t) (text : Bytes) (hx : Utf8 text) (r : MatchResult) (hr : t.parse text = .ok (some r)) :
    ∃ p ∈ ps, ∃ caps, RegexReads p.pattern text caps ∧ IsResult r p caps := by
  obtain ⟨p, hp, caps, h1, h2⟩ := C11_trie_sound sip ps hu hcol t hb text hx r hr
  exact ⟨p, hp, caps, Regex.reads_of_matches h1, h2⟩

/-- C130, the other direction (partial): if it is clear where the texts of the parsers end, and the literals behind GREEDY parsers occur once in the text,
then a trie holding the pattern of the string answers the text iff the regular expression matches it (and a GREEDY at the end is not left empty, see C53);
there is only one way to match it, and its groups are the values of the answer.  Missing: other pattern strings and texts, for which it is false. -/
theorem C130_same_partial (sip : Bytes → UInt64) (s : Bytes) (hs : Utf8 s) (p : Pattern) (hc : compile s = .ok (.ok p.pattern)) (ha : AllApart p.pattern)
    (t : SuffixTree) (hb : SuffixTree.build sip [p] = .ok t) (text : Bytes) (hx : Utf8 text) (ho : EndsOnce p.pattern text)
    (r : Option MatchResult) (hr : t.parse text = .ok r) :
    (∀ caps, RegexReads p.pattern text caps → (∀ g, p.pattern.getLast? = some (.parser (.greedy g)) → lastPiece p.pattern caps ≠ []) →
      ∃ res, r = some res ∧ IsResult res p caps) ∧
    (∀ res, r = some res → ∃ caps, RegexReads p.pattern text caps ∧ IsResult res p caps ∧ ∀ caps', RegexReads p.pattern text caps' → caps' = caps) := by
  have hsh := compiledShape hs hc
  obtain ⟨h1, h2⟩ := C52_end_to_end_utf8 sip s hs p hc text hx t hb r hr
  refine ⟨fun caps hm hl => ?_, fun res he => ?_⟩
  · have hm := Regex.matches_of_reads hm hsh ha ho
    exact h1 caps (matches_strict hm (Regex.lastPiece_ne hm hsh (C34_shape s hs _ hc).1 hl))
  · obtain ⟨caps, h3, h4⟩ := h2 res he
    have h3 := matchesStrict_matches h3
    exact ⟨caps, Regex.reads_of_matches h3, h4, fun caps' h5 => matches_unique (Regex.matches_of_reads h5 hsh ha ho) h3⟩

/-- C130, exactly: for an ASCII pattern string whose parsers can have values, actiondb reads every text as the regular expression does, in whatever way it
does, iff it is clear where the texts of the parsers end and a GREEDY stands at the end only. -/
theorem C130_exactly (s : Bytes) (hs : Ascii s) (p : Pattern) (hc : compile s = .ok (.ok p.pattern)) (hp : ∀ t ∈ p.pattern, Possible t) :
    (∀ text caps, Ascii text → (RegexReads p.pattern text caps ↔ Matches p.pattern text caps)) ↔ AllApart p.pattern ∧ GreedyLast p.pattern := by
  have hpl : Regex.Plain p.pattern := ⟨hp, compiled_ascii hs hc, fun q hq => ((compiled_plainSets hs hc).1 q hq).1⟩
  rw [← Regex.exactly (compiledShape (ascii_utf8 hs) hc) hpl]
  exact ⟨fun h x caps hx hr => (h x caps hx).mp hr, fun h x caps hx => ⟨h x caps hx, Regex.reads_of_matches⟩⟩

/-- C130 is false as stated: `%{INT:a}5` does not match `15`, although `[0-9]+5` does; and `%{GREEDY:a};` does not match `a;;`, although `.*;` does. -/
theorem C130_refuted : ¬ ∀ (sip : Bytes → UInt64) (s : Bytes) (p : Pattern) (text : Bytes), Ascii s → compile s = .ok (.ok p.pattern) → Ascii text →
    (∃ caps, RegexReads p.pattern text caps) → ∃ r, (SuffixTree.build sip [p] >>= fun t => t.parse text) = .ok (some r) := by
  intro h
  obtain ⟨r, hr⟩ := h Samples.sip b!"%{INT:a}5" (Samples.pat 1 [.parser (Samples.int b!"a"), .literal b!"5"]) b!"15" (by decide) (by decide +kernel) (by decide)
    ⟨_, Regex.reads_append (Regex.parser_reads (a := Samples.int b!"a") (v := b!"1") ⟨by decide, by decide, fun n h => by simp [intDelegate, SetParser.new] at h⟩) (Regex.literal_reads b!"5")⟩
  have : (SuffixTree.build Samples.sip [Samples.pat 1 [.parser (Samples.int b!"a"), .literal b!"5"]] >>= fun t => t.parse b!"15") = .ok none := by decide +kernel
  rw [this] at hr; simp at hr

theorem C130_greedy_refuted : ¬ ∀ (sip : Bytes → UInt64) (s : Bytes) (p : Pattern) (text : Bytes), Ascii s → compile s = .ok (.ok p.pattern) → Ascii text →
    AllApart p.pattern → (∃ caps, RegexReads p.pattern text caps) → ∃ r, (SuffixTree.build sip [p] >>= fun t => t.parse text) = .ok (some r) := by
  intro h
  obtain ⟨r, hr⟩ := h Samples.sip b!"%{GREEDY:a};" (Samples.pat 1 [.parser (Samples.greedy b!"a" (some b!";")), .literal b!";"]) b!"a;;" (by decide)
    (by decide +kernel) (by decide)
    (by
      intro before a b after e
      cases before with
      | nil =>
        simp [Samples.pat] at e
        obtain ⟨rfl, rfl, -⟩ := e
        exact ⟨_, rfl⟩
      | cons c before => have := congrArg List.length e; simp [Samples.pat] at this; omega)
    ⟨_, Regex.reads_append (Regex.parser_reads (a := Samples.greedy b!"a" (some b!";")) (v := b!"a;") trivial) (Regex.literal_reads b!";")⟩
  have : (SuffixTree.build Samples.sip [Samples.pat 1 [.parser (Samples.greedy b!"a" (some b!";")), .literal b!";"]] >>= fun t => t.parse b!"a;;") = .ok none := by
    decide +kernel
  rw [this] at hr; simp at hr

end Verif
