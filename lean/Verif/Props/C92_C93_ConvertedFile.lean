import Verif.Spec.ConvertedFile
import Verif.Props.C89_C90_Converted
import Verif.Props.C46_C48_Files
/-! C92, C93, C94: the file written by the script /repo/utils/pdb2adb. -/
namespace Verif
open Spec Perl

theorem encode_inj {a b : Str} (h : encode a = encode b) : a = b := by
  have h1 : a <+: b := utf8Of_prefix.mp (h ▸ List.prefix_rfl)
  have h2 : b <+: a := utf8Of_prefix.mp (h ▸ List.prefix_rfl)
  exact h1.eq_of_length_le h2.length_le

theorem strVal_inj {a b : Str} (h : strVal a = strVal b) : a = b := by
  simp only [strVal, Val.str.injEq] at h
  exact encode_inj h

theorem nodup_last {l : List (Val × Val)} {k : Bytes} {v : Val} (hn : (l.map Prod.fst).Nodup) (hm : (.str k, v) ∈ l) : LastEntry l k v := by
  obtain ⟨A, B, rfl⟩ := List.append_of_mem hm
  refine ⟨A, B, rfl, fun e he h => ?_⟩
  rw [List.map_append, List.map_cons, List.nodup_append] at hn
  exact (List.nodup_cons.mp hn.2.1).1 (List.mem_map.mpr ⟨e, he, h⟩)

/-- The keys are different and every example has values. -/
def GoodPdbRule (r : PdbRule) : Prop :=
  (∀ vs, r.values = some vs → (vs.map Prod.fst).Nodup) ∧ ∀ e ∈ r.examples, ∃ vs, e.values = some vs ∧ (vs.map Prod.fst).Nodup

theorem sources_rule {env : Env} {rules : List PdbRule} {x : PdbRule × Str × Nat × Str} (h : x ∈ sources env rules) : x.1 ∈ rules := by
  obtain ⟨r, h1, h2⟩ := List.mem_flatMap.mp h
  split at h2
  · cases h2
  · obtain ⟨y, _, rfl⟩ := List.mem_map.mp h2
    exact h1

theorem goodPdbRule {env : Env} {read : Str → Str → Option (List Elem)} {rules : List PdbRule} (h1 : ∀ r ∈ rules, DistinctKeys r)
    (h2 : HaveValues env read rules) : ∀ x ∈ sources env rules, read x.2.1 x.2.2.2 ≠ none → GoodPdbRule x.1 := by
  refine fun x hx hr => ⟨(h1 _ (sources_rule hx)).1, fun e he => ?_⟩
  cases hv : e.values with
  | none => exact absurd hv (h2 x hx hr e he)
  | some vs => exact ⟨vs, rfl, (h1 _ (sources_rule hx)).2 e he vs hv⟩

theorem find_nodup {l : List (Bytes × Bytes)} (hn : (l.map Prod.fst).Nodup) (k x : Bytes) :
    (l.find? fun kv => decide (kv.1 = k)).map (·.2) = some x ↔ (k, x) ∈ l := by
  induction l with
  | nil => simp
  | cons e l ih =>
    rw [List.map_cons, List.nodup_cons] at hn
    rw [List.find?_cons]
    by_cases he : e.1 = k
    · simp only [he, decide_true]
      constructor
      · intro h
        simp at h
        rw [← h, ← he]; simp
      · intro h
        rcases List.mem_cons.mp h with h | h
        · rw [← h]; rfl
        · exact absurd (List.mem_map.mpr ⟨_, h, rfl⟩) (he ▸ hn.1)
    · simp only [he, decide_false]
      rw [ih hn.2]
      constructor
      · exact fun h => List.mem_cons_of_mem _ h
      · intro h
        rcases List.mem_cons.mp h with h | h
        · exact absurd (by rw [← h]) he
        · exact h

/-! ### One pattern -/

theorem loop_out (fs : List Str) (st : Bool) (out : Str) : p2pLoop fs st out = (p2pLoop fs st []).map (out ++ ·) := by
  induction fs generalizing st out with
  | nil => simp [p2pLoop]
  | cons f fs ih =>
    simp only [p2pLoop]
    split
    · exact ih _ _
    · split
      · split
        · split
          · rename_i s _ _
            rw [ih _ (out ++ s), ih _ ([] ++ s), Option.map_map]
            simp [Function.comp_def]
          · rfl
        · rfl
      · rw [ih _ (out ++ _), ih _ ([] ++ _), Option.map_map]
        simp [Function.comp_def]

theorem elem_text_ne {e : Elem} {w : Bytes} (h : ElemText e w) : w ≠ [] ∧ (e.isLiteral = false → w.head? = some 37) := by
  cases h with
  | literal _ h1 _ => exact ⟨h1, by simp [Elem.isLiteral]⟩
  | _ => simp

theorem written_truthy {es : List Elem} {w : Str} (h : Written es (encode w)) (h1 : es ≠ []) (h2 : es ≠ [.literal b!"0"]) : truthy w = true := by
  have n1 : w ≠ [] := by
    rintro rfl
    rw [show encode [] = [] from rfl] at h
    generalize hb : ([] : Bytes) = b at h
    cases h with
    | nil => exact h1 rfl
    | cons e es w s he _ _ =>
      have := (elem_text_ne he).1
      cases w with
      | nil => exact this rfl
      | cons => simp at hb
  have n2 : w ≠ ['0'] := by
    rintro rfl
    rw [show encode ['0'] = [48] by decide] at h
    generalize hb : ([48] : Bytes) = b at h
    cases h with
    | nil => cases hb
    | cons e es w s he hw _ =>
      have h3 := elem_text_ne he
      cases w with
      | nil => exact h3.1 rfl
      | cons a w =>
        simp at hb
        obtain ⟨rfl, rfl, rfl⟩ := hb
        cases hl : e.isLiteral with
        | false => have := h3.2 hl; simp at this
        | true =>
          cases he with
          | literal =>
            cases hw' : es with
            | nil => rw [hw'] at h2; exact h2 rfl
            | cons e' es' =>
              rw [hw'] at hw
              generalize hb : ([] : Bytes) = b at hw
              cases hw with
              | cons _ _ w s he _ _ =>
                have := (elem_text_ne he).1
                cases w with
                | nil => exact this rfl
                | cons => simp at hb
  simp only [truthy]
  simp [n1, n2]

theorem reading_some {env : Env} {prog src : Str} {es : List Elem} (h : PdbReading (frontOf env prog) src (some es)) :
    ∃ s, p2p src = some s ∧ truthy s = true ∧ compile (encode ((if env.withProgram then prog ++ ": ".toList else []) ++ s)) = .ok (.ok (meant es)) := by
  generalize hf : frontOf env prog = front at h
  cases h with
  | converted ps es0 _ hp hne h0 hcl hp' hcl' =>
    subst hf
    obtain ⟨ess, h1, rfl⟩ := hp
    obtain ⟨ess', h1', rfl⟩ := hp'
    obtain ⟨w, h2, h3⟩ := p2p_pieces h1
    have hw := h3.join (clean_begin _ hcl)
    refine ⟨w, h2, written_truthy hw hne h0, ?_⟩
    have hne' : joinLiterals ess'.flatten ≠ [] ∧ RawText ess'.flatten (encode ((if env.withProgram then prog ++ ": ".toList else []) ++ w)) := by
      obtain ⟨w0, h4, h5⟩ := pieces_text h1 []
      have e0 : w0 = w := by
        unfold p2p at h2
        split at h2
        · rename_i he
          simp at he
          rw [he] at h4
          simp [fields, p2pLoop, unescapePattern, replaceAts] at h4 h2
          exact (h4.symm ▸ h2.symm ▸ rfl : w0 = w)
        · rw [loop_trailing _ _ _ _ h4] at h2
          simpa using h2
      subst e0
      unfold frontOf at h1'
      by_cases hp : env.withProgram = true
      · rw [if_pos hp] at h1' ⊢
        obtain ⟨w', h6, h7⟩ := pieces_text h1' []
        have hat : '@' ∉ prog ++ ": ".toList := by
          cases h1' with
          | cons _ _ _ _ a _ => cases a with
            | text _ h => exact h
        have e1 : pdbSource ([.text (prog ++ ": ".toList)] ++ ps) = (prog ++ ": ".toList) ++ pdbSource ps := by simp [pdbSource, PdbPiece.source]
        rw [e1, loop_text hat, loop_out, h4] at h6
        simp only [List.nil_append, Option.map_some, Option.some.injEq] at h6
        rw [← h6] at h7
        refine ⟨fun e => ?_, h7⟩
        have := h7.join (by rw [e]; simp)
        rw [e] at this
        generalize hb : encode (prog ++ ": ".toList ++ w0) = b at this
        cases this
        have : encode (prog ++ ": ".toList ++ w0) ≠ [] := encode_ne (by simp)
        exact this hb
      · rw [if_neg hp] at h1' ⊢
        obtain ⟨w', h6, h7⟩ := pieces_text h1' []
        rw [List.nil_append, h4] at h6
        simp only [List.nil_append, Option.some.injEq] at h6
        rw [← h6] at h7
        refine ⟨fun e => ?_, h7⟩
        have h8 := h7.join (by rw [e]; simp)
        rw [e] at h8
        generalize hb : encode w0 = b at h8
        cases h8
        have h9 := written_truthy hw hne h0
        have : w0 ≠ [] := by rintro rfl; simp [truthy] at h9
        exact encode_ne this hb
    rw [← tokens_meant _ hcl']
    exact written_compiles (utf8Of_utf8 _) hne'.1 (hne'.2.join (clean_begin _ hcl'))

theorem reading_none {front : List PdbPiece} {src : Str} (h : PdbReading front src none) : ∀ s, p2p src = some s → truthy s = false := by
  cases h with
  | unsupported pre type args rest h1 h2 h3 => rw [C91_unsupported pre h1 type h2 args h3 rest]; simp
  | escaped pre rest h1 => rw [C90_escape_partial pre h1 rest]; simp
  | falsy _ h =>
    rcases h with rfl | rfl
    · rw [show p2p [] = some [] by decide]; intro s h; injection h with h; subst h; rfl
    · rw [show p2p ['0'] = some ['0'] by decide]; intro s h; injection h with h; subst h; rfl

variable {env : Env} (ho : ∀ l, (env.order l).Perm l)
include ho

theorem hash_entries {l : List (Str × Val)} (hn : (l.map Prod.fst).Nodup) :
    ∃ l', hashVal env l = .obj l' ∧ (∀ k w, (k, w) ∈ l' → ∃ s, (s, w) ∈ l ∧ k = strVal s) ∧ (l'.map Prod.fst).Nodup ∧ l'.Perm (l.map fun e => (strVal e.1, e.2)) ∧
      (∀ s v, (s, v) ∈ l → LastEntry l' (encode s) v) ∧ ∀ s, s ∉ l.map Prod.fst → ∀ e ∈ l', e.1 ≠ .str (encode s) := by
  have hp := ho (l.map fun e => (strVal e.1, e.2))
  have hn' : ((env.order (l.map fun e => (strVal e.1, e.2))).map Prod.fst).Nodup := by
    rw [(hp.map Prod.fst).nodup_iff, List.map_map]
    have : (l.map (Prod.fst ∘ fun e : Str × Val => (strVal e.1, e.2))) = (l.map Prod.fst).map strVal := by simp [Function.comp_def]
    rw [this]
    exact (List.pairwise_map.mpr (hn.imp fun h e => h (strVal_inj e)))
  refine ⟨_, rfl, ?_, hn', hp, ?_, ?_⟩
  · intro k w h
    obtain ⟨e, he, h⟩ := List.mem_map.mp (hp.mem_iff.mp h)
    simp only [Prod.mk.injEq] at h
    exact ⟨e.1, h.2 ▸ he, h.1.symm⟩
  · intro s v h
    exact nodup_last hn' (hp.mem_iff.mpr (List.mem_map.mpr ⟨_, h, rfl⟩))
  · intro s hs e he h
    obtain ⟨e', he', rfl⟩ := List.mem_map.mp (hp.mem_iff.mp he)
    exact hs (List.mem_map.mpr ⟨e', he', strVal_inj h⟩)

variable {d : Deps} (hd : Faithful d)
include hd

theorem hash_map {kvs : List (Str × Str)} (hn : (kvs.map Prod.fst).Nodup) :
    ∃ m, IsMap d (hashVal env (kvs.map fun v => (v.1, strVal v.2))) m ∧ SameEntries m kvs := by
  have hn1 : ((kvs.map fun v => (v.1, strVal v.2)).map Prod.fst).Nodup := by simpa [Function.comp_def] using hn
  obtain ⟨l', e1, e2, e3, e4, _, _⟩ := hash_entries ho hn1
  have inv : ∀ l : List (Val × Val), (∀ e ∈ l, ∃ kv ∈ kvs, e = (strVal kv.1, strVal kv.2)) →
      ∃ l'' : List (Str × Str), l = l''.map (fun kv => (strVal kv.1, strVal kv.2)) ∧ ∀ kv ∈ l'', kv ∈ kvs := by
    intro l
    induction l with
    | nil => exact fun _ => ⟨[], rfl, by simp⟩
    | cons e l ih =>
      intro h
      obtain ⟨kv, hk, rfl⟩ := h e (by simp)
      obtain ⟨l'', rfl, h2⟩ := ih fun x hx => h x (by simp [hx])
      exact ⟨kv :: l'', rfl, by simpa [hk] using h2⟩
  have hmem : ∀ e, e ∈ l' ↔ ∃ kv ∈ kvs, e = (strVal kv.1, strVal kv.2) := by
    intro e
    rw [e4.mem_iff]
    simp [eq_comm]
  obtain ⟨l'', hl, h2⟩ := inv l' fun e he => (hmem e).mp he
  have h3 : ∀ kv, kv ∈ l'' ↔ kv ∈ kvs := by
    refine fun kv => ⟨h2 kv, fun h => ?_⟩
    have := (hmem (strVal kv.1, strVal kv.2)).mpr ⟨kv, h, rfl⟩
    rw [hl] at this
    obtain ⟨kv', h4, h5⟩ := List.mem_map.mp this
    simp only [Prod.mk.injEq] at h5
    have : kv' = kv := Prod.ext (strVal_inj h5.1) (strVal_inj h5.2)
    exact this ▸ h4
  have hnil : OrderedMap ([] : BMap) := List.Pairwise.nil
  have hdm : deserMap d (.obj l') = .ok ((l''.map fun kv => (encode kv.1, encode kv.2)).foldl (fun m kv => m.insert kv.1 kv.2) []) := by
    unfold deserMap
    simp only [hd.entries, bind, Except.bind]
    rw [deserMapLoop_ok]
    refine ⟨_, ?_, rfl⟩
    rw [hl]
    clear hl h2 h3
    induction l'' with
    | nil => exact .nil
    | cons e l ih => exact .cons _ _ _ _ ⟨hd.string _, hd.string _⟩ ih
  rw [e1]
  refine ⟨_, (deserMap_ok d _ _).mp hdm, (foldl_insert hnil).1, fun k x => ?_⟩
  rw [mem_iff_get (foldl_insert hnil).1, (foldl_insert hnil).2]
  have hk : (l''.map Prod.fst).Nodup := by
    have := e3
    rw [hl, List.map_map] at this
    have h6 : (l''.map (Prod.fst ∘ fun kv : Str × Str => (strVal kv.1, strVal kv.2))) = (l''.map Prod.fst).map strVal := by simp [Function.comp_def]
    rw [h6] at this
    exact (List.pairwise_map.mp this).imp fun h e => h (by rw [e])
  have hk2 : ((l''.map fun kv => (encode kv.1, encode kv.2)).reverse.map Prod.fst).Nodup := by
    rw [List.map_reverse, List.map_map]
    have h6 : (l''.map (Prod.fst ∘ fun kv : Str × Str => (encode kv.1, encode kv.2))) = (l''.map Prod.fst).map encode := by simp [Function.comp_def]
    rw [h6]
    exact (List.reverse_perm _).nodup_iff.mpr (List.pairwise_map.mpr (hk.imp fun h e => h (encode_inj e)))
  have hg : ∀ k, BMap.get? ([] : BMap) k = none := fun _ => rfl
  rw [hg, Option.or_none, find_nodup hk2]
  simp only [List.mem_reverse, List.mem_map, Prod.mk.injEq]
  constructor
  · rintro ⟨kv, h, h1, h2⟩; exact ⟨kv, (h3 kv).mp h, h1, h2⟩
  · rintro ⟨kv, h, h1, h2⟩; exact ⟨kv, (h3 kv).mpr h, h1, h2⟩

theorem message_ok {e : PdbExample} {vs : List (Str × Str)} (he : e.values = some vs) (hn : (vs.map Prod.fst).Nodup) :
    ∃ m, IsMessage d (hashVal env [("message".toList, strVal ((if env.withProgram then e.program ++ ": ".toList else []) ++ e.message)),
      ("values".toList, match e.values with
        | some vs => hashVal env (vs.map fun v => (v.1, strVal v.2))
        | none => .null)]) m ∧
      m.message = encode ((if env.withProgram then e.program ++ ": ".toList else []) ++ e.message) ∧ m.tags = none ∧ SameEntries m.values vs := by
  obtain ⟨map, h1, h2⟩ := hash_map ho hd hn
  rw [he]
  obtain ⟨l', e1, e2, e3, e4, e5, e6⟩ := hash_entries ho (l := [("message".toList, strVal ((if env.withProgram then e.program ++ ": ".toList else []) ++ e.message)),
      ("values".toList, hashVal env (vs.map fun v => (v.1, strVal v.2)))])
      (show ["message".toList, "values".toList].Nodup by decide)
  refine ⟨⟨encode ((if env.withProgram then e.program ++ ": ".toList else []) ++ e.message), map, none⟩, ?_, rfl, rfl, h2⟩
  refine ⟨l', e1, ?_, ⟨_, e5 "message".toList _ (.head _), hd.string _⟩, e6 "tags".toList (show "tags".toList ∉ ["message".toList, "values".toList] by decide),
    some map, ⟨_, e5 "values".toList _ (.tail _ (.head _)), h1⟩, rfl⟩
  intro k w h
  obtain ⟨s, hs, rfl⟩ := e2 k w h
  simp only [List.mem_cons, Prod.mk.injEq, List.not_mem_nil, or_false] at hs
  rcases hs with ⟨rfl, rfl⟩ | ⟨rfl, rfl⟩
  · exact .inl ⟨rfl, _, hd.string _⟩
  · exact .inr (.inl ⟨rfl, map, h1⟩)

theorem messages_ok {es : List PdbExample} (hg : ∀ e ∈ es, ∃ vs, e.values = some vs ∧ (vs.map Prod.fst).Nodup) :
    ∃ ms, Each (IsMessage d) (testMessages env es) ms ∧
      Each (fun e m => m.message = encode ((if env.withProgram then e.program ++ ": ".toList else []) ++ e.message) ∧
        m.tags = none ∧ ∃ vs, e.values = some vs ∧ SameEntries m.values vs) es ms := by
  induction es with
  | nil => exact ⟨[], .nil, .nil⟩
  | cons e es ih =>
    obtain ⟨ms, h1, h2⟩ := ih fun x hx => hg x (by simp [hx])
    obtain ⟨vs, h3, h4⟩ := hg e (by simp)
    obtain ⟨m, h5, h6, h7, h8⟩ := message_ok ho hd h3 h4
    exact ⟨m :: ms, .cons _ _ _ _ h5 h1, .cons _ _ _ _ ⟨h6, h7, vs, h3, h8⟩ h2⟩

omit ho in
theorem strings_ok (ts : List Str) : IsList d (IsString d) (.arr (ts.map strVal)) (ts.map encode) := by
  refine ⟨_, hd.seq _, ?_⟩
  induction ts with
  | nil => exact .nil
  | cons t ts ih => exact .cons _ _ _ _ (hd.string _) ih

omit ho hd in
theorem plain_filter (vs : List (Str × Str)) :
    (vs.filter fun v => !contains "$(".toList v.2) = vs.filter fun v => decide (¬ "$(".toList <:+: v.2) := by
  apply List.filter_congr
  intro v _
  cases h : contains "$(".toList v.2 with
  | true =>
    have : "$(".toList <:+: v.2 := contains_iff.mp h
    rw [decide_eq_false (fun h' => h' this)]; rfl
  | false =>
    have : ¬ "$(".toList <:+: v.2 := fun h' => by rw [contains_iff.mpr h'] at h; cases h
    rw [decide_eq_true this]; rfl

/-- The entries for the values and tags. -/
theorem extras_cases (r : PdbRule) (hg : GoodPdbRule r) :
    ∃ ev et, extras env r = ev ++ et ∧
      ((ev = [] ∧ plainValues r = []) ∨ ∃ v vs m, plainValues r = v :: vs ∧ ∃ V, ev = [("values".toList, V)] ∧ IsMap d V m ∧ SameEntries m (plainValues r)) ∧
      ((et = [] ∧ r.tags = none) ∨ ∃ ts V, r.tags = some ts ∧ et = [("tags".toList, V)] ∧ IsList d (IsString d) V (ts.map encode)) := by
  refine ⟨_, _, rfl, ?_, ?_⟩
  · unfold plainValues
    cases hv : r.values with
    | none => exact .inl ⟨rfl, rfl⟩
    | some vs =>
      simp only [Option.getD_some]
      rw [plain_filter]
      have hnd : ((vs.filter fun v => decide (¬ "$(".toList <:+: v.2)).map Prod.fst).Nodup := (hg.1 vs hv).sublist (List.filter_sublist.map _)
      cases hf : vs.filter fun v => decide (¬ "$(".toList <:+: v.2) with
      | nil => exact .inl ⟨rfl, rfl⟩
      | cons v ws =>
        rw [hf] at hnd
        obtain ⟨m, h1, h2⟩ := hash_map ho hd hnd
        exact .inr ⟨v, ws, m, rfl, _, rfl, h1, h2⟩
  · cases ht : r.tags with
    | none => exact .inl ⟨rfl, rfl⟩
    | some ts => exact .inr ⟨ts, _, rfl, rfl, strings_ok hd ts⟩

/-- One pattern of the document. -/
theorem pattern_ok (r : PdbRule) (hg : GoodPdbRule r) (uuid text : Str) (n k : Nat) (hu : d.uuid (strVal uuid) = .ok k) (toks : List Token)
    (hc : compile (encode text) = .ok (.ok toks)) :
    ∃ p, IsPattern d (hashVal env ([("uuid".toList, strVal uuid), ("pattern".toList, strVal text),
          ("name".toList, strVal (r.ruleset ++ "_".toList ++ (toString n).toList)),
          ("test_messages".toList, .arr (testMessages env r.examples))] ++ extras env r)) p ∧
      p.uuid = k ∧ p.pattern = toks ∧ p.name = some (encode (r.ruleset ++ '_' :: (toString n).toList)) ∧ p.tags = r.tags.map (·.map encode) ∧
      (match plainValues r with
        | [] => p.values = none
        | vs => ∃ m, p.values = some m ∧ SameEntries m vs) ∧
      ∃ ms, p.testMessages = some ms ∧ Each (fun e m => m.message = encode ((if env.withProgram then e.program ++ ": ".toList else []) ++ e.message) ∧
        m.tags = none ∧ ∃ vs, e.values = some vs ∧ SameEntries m.values vs) r.examples ms := by
  obtain ⟨ms, m1, m2⟩ := messages_ok ho hd hg.2
  obtain ⟨ev, et, hx, hv, ht⟩ := extras_cases ho hd r hg
  have en : strVal (r.ruleset ++ "_".toList ++ (toString n).toList) = .str (encode (r.ruleset ++ '_' :: (toString n).toList)) := by simp [strVal]
  have hn : (([("uuid".toList, strVal uuid), ("pattern".toList, strVal text),
          ("name".toList, strVal (r.ruleset ++ "_".toList ++ (toString n).toList)),
          ("test_messages".toList, .arr (testMessages env r.examples))] ++ extras env r).map Prod.fst).Nodup := by
    rw [hx]
    rcases hv with ⟨rfl, _⟩ | ⟨_, _, _, _, V, rfl, _⟩ <;> rcases ht with ⟨rfl, _⟩ | ⟨_, W, _, rfl, _⟩
    · show ["uuid".toList, "pattern".toList, "name".toList, "test_messages".toList].Nodup; decide
    · show ["uuid".toList, "pattern".toList, "name".toList, "test_messages".toList, "tags".toList].Nodup; decide
    · show ["uuid".toList, "pattern".toList, "name".toList, "test_messages".toList, "values".toList].Nodup; decide
    · show ["uuid".toList, "pattern".toList, "name".toList, "test_messages".toList, "values".toList, "tags".toList].Nodup; decide
  obtain ⟨l', e1, e2, e3, e4, e5, e6⟩ := hash_entries ho hn
  have hvals : ∃ vals, Field l' b!"values" (IsMap d) vals ∧ (match plainValues r with
        | [] => vals = none
        | vs => ∃ m, vals = some m ∧ SameEntries m vs) := by
    rcases hv with ⟨rfl, h⟩ | ⟨v, vs, m, h, V, rfl, h1, h2⟩
    · refine ⟨none, e6 "values".toList ?_, by rw [h]⟩
      rw [hx]
      rcases ht with ⟨rfl, _⟩ | ⟨_, W, _, rfl, _⟩
      · show "values".toList ∉ ["uuid".toList, "pattern".toList, "name".toList, "test_messages".toList]; decide
      · show "values".toList ∉ ["uuid".toList, "pattern".toList, "name".toList, "test_messages".toList, "tags".toList]; decide
    · refine ⟨some m, ⟨V, e5 "values".toList V ?_, h1⟩, ?_⟩
      · rw [hx]; exact .tail _ (.tail _ (.tail _ (.tail _ (.head _))))
      · rw [h] at h2 ⊢; exact ⟨m, rfl, h2⟩
  have htags : Field l' b!"tags" (IsList d (IsString d)) (r.tags.map (·.map encode)) := by
    rcases ht with ⟨rfl, h⟩ | ⟨ts, W, h, rfl, h1⟩
    · rw [h]
      refine e6 "tags".toList ?_
      rw [hx]
      rcases hv with ⟨rfl, _⟩ | ⟨_, _, _, _, V, rfl, _⟩
      · show "tags".toList ∉ ["uuid".toList, "pattern".toList, "name".toList, "test_messages".toList]; decide
      · show "tags".toList ∉ ["uuid".toList, "pattern".toList, "name".toList, "test_messages".toList, "values".toList]; decide
    · rw [h]
      refine ⟨W, e5 "tags".toList W ?_, h1⟩
      rw [hx]; simp
  obtain ⟨vals, v1, v2⟩ := hvals
  refine ⟨⟨some (encode (r.ruleset ++ '_' :: (toString n).toList)), k, toks, vals, r.tags.map (·.map encode), some ms⟩,
    ⟨l', e1, ?_, ⟨encode text, ⟨_, e5 "pattern".toList _ (.tail _ (.head _)), hd.string _⟩, hc⟩, ⟨_, e5 "uuid".toList _ (.head _), hu⟩,
      ⟨_, e5 "name".toList _ (.tail _ (.tail _ (.head _))), by rw [en]; exact hd.string _⟩, v1, htags,
      ⟨_, e5 "test_messages".toList _ (.tail _ (.tail _ (.tail _ (.head _)))), ⟨_, hd.seq _, m1⟩⟩⟩, rfl, rfl, rfl, rfl, v2, ms, rfl, m2⟩
  intro key w h
  obtain ⟨s, hs, rfl⟩ := e2 key w h
  rw [hx] at hs
  simp only [List.mem_append, List.mem_cons, Prod.mk.injEq, List.not_mem_nil, or_false] at hs
  rcases hs with (⟨rfl, rfl⟩ | ⟨rfl, rfl⟩ | ⟨rfl, rfl⟩ | ⟨rfl, rfl⟩) | hs | hs
  · exact .inr (.inl ⟨rfl, k, hu⟩)
  · exact .inr (.inr (.inl ⟨rfl, _, hd.string _⟩))
  · exact .inl ⟨rfl, _, hd.string _⟩
  · exact .inr (.inr (.inr (.inr (.inr ⟨rfl, ms, _, hd.seq _, m1⟩))))
  · rcases hv with ⟨rfl, _⟩ | ⟨_, _, m, _, V, rfl, h1, _⟩
    · simp at hs
    · simp only [List.mem_cons, Prod.mk.injEq, List.not_mem_nil, or_false] at hs
      obtain ⟨rfl, rfl⟩ := hs
      exact .inr (.inr (.inr (.inl ⟨rfl, m, h1⟩)))
  · rcases ht with ⟨rfl, _⟩ | ⟨ts, W, _, rfl, h1⟩
    · simp at hs
    · simp only [List.mem_cons, Prod.mk.injEq, List.not_mem_nil, or_false] at hs
      obtain ⟨rfl, rfl⟩ := hs
      exact .inr (.inr (.inr (.inr (.inl ⟨rfl, _, h1⟩))))

/-! ### The loops -/

omit ho hd in
theorem expectedFrom_cons (read : Str → Str → Option (List Elem)) (x : PdbRule × Str × Nat × Str) (items : List (PdbRule × Str × Nat × Str)) (g : Nat) :
    expectedFrom env read (x :: items) g =
      ((read x.2.1 x.2.2.2).map fun es => (⟨x.1, if x.2.2.1 = 0 then x.1.id else env.fresh (g - 1), es⟩ : Expected)).toList ++ expectedFrom env read items (g + 1) := by
  unfold expectedFrom
  rw [List.zipIdx_cons, List.filterMap_cons]
  cases read x.2.1 x.2.2.2 <;> simp

omit ho hd in
theorem expectedFrom_append (read : Str → Str → Option (List Elem)) (a b : List (PdbRule × Str × Nat × Str)) (g : Nat) :
    expectedFrom env read (a ++ b) g = expectedFrom env read a g ++ expectedFrom env read b (g + a.length) := by
  unfold expectedFrom
  rw [List.zipIdx_append, List.filterMap_append]

omit ho hd in
theorem each_append {α β : Type} {R : α → β → Prop} {a b : List α} {c e : List β} (h1 : Each R a c) (h2 : Each R b e) : Each R (a ++ b) (c ++ e) := by
  induction h1 with
  | nil => exact h2
  | cons x y _ _ h _ ih => exact .cons _ _ _ _ h ih

theorem pattern_loop (uuidOf : Str → Nat) (read : Str → Str → Option (List Elem)) (r : PdbRule) (prog : Str)
    (hid : d.uuid (strVal r.id) = .ok (uuidOf r.id)) (hfr : ∀ n, d.uuid (strVal (env.fresh n)) = .ok (uuidOf (env.fresh n))) :
    ∀ (srcs : List Str) (j : Nat) (c : Counters), (∀ src ∈ srcs, read prog src ≠ none → GoodPdbRule r) → (∀ src ∈ srcs, PdbReading (frontOf env prog) src (read prog src)) →
      ∃ c', (patternLoop env r prog srcs (if j = 0 then r.id else env.fresh (c.uuids - 1)) c).2 = c' ∧ c'.uuids = c.uuids + srcs.length ∧
        c'.written = c.written + (expectedFrom env read ((srcs.zipIdx j).map fun x => (r, prog, x.2, x.1)) c.uuids).length ∧
        Each (fun x v => ∃ p, IsPattern d v p ∧ IsExpected env uuidOf x p)
          ((expectedFrom env read ((srcs.zipIdx j).map fun x => (r, prog, x.2, x.1)) c.uuids).zipIdx c.written)
          (patternLoop env r prog srcs (if j = 0 then r.id else env.fresh (c.uuids - 1)) c).1 := by
  intro srcs
  induction srcs with
  | nil => intro j c _ _; exact ⟨c, rfl, rfl, rfl, .nil⟩
  | cons src srcs ih =>
    intro j c hg hr
    have hg2 : ∀ s ∈ srcs, read prog s ≠ none → GoodPdbRule r := fun s hs => hg s (by simp [hs])
    have hr1 := hr src (by simp)
    have hr2 : ∀ s ∈ srcs, PdbReading (frontOf env prog) s (read prog s) := fun s hs => hr s (by simp [hs])
    rw [List.zipIdx_cons, List.map_cons, expectedFrom_cons]
    simp only
    cases hread : read prog src with
    | none =>
      rw [hread] at hr1
      obtain ⟨c', h1, h2, h3, h4⟩ := ih (j + 1) ⟨c.written, c.uuids + 1⟩ hg2 hr2
      rw [if_neg (by omega), show c.uuids + 1 - 1 = c.uuids by omega] at h1 h4
      unfold patternLoop
      simp only [Option.map_none, Option.toList_none, List.nil_append]
      cases hp : p2p src with
      | none => exact ⟨c', h1, by simp at h2 ⊢; omega, h3, h4⟩
      | some s =>
        simp only [reading_none hr1 s hp, Bool.false_eq_true, if_false]
        exact ⟨c', h1, by simp at h2 ⊢; omega, h3, h4⟩
    | some es =>
      rw [hread] at hr1
      obtain ⟨s, s1, s2, s3⟩ := reading_some hr1
      obtain ⟨c', h1, h2, h3, h4⟩ := ih (j + 1) ⟨c.written + 1, c.uuids + 1⟩ hg2 hr2
      rw [if_neg (by omega), show c.uuids + 1 - 1 = c.uuids by omega] at h1 h4
      unfold patternLoop
      rw [s1]
      simp only [s2, if_true, Option.map_some, Option.toList_some, List.cons_append, List.nil_append, List.zipIdx_cons]
      refine ⟨c', h1, by simp at h2 ⊢; omega, by simp at h3 ⊢; omega, .cons _ _ _ _ ?_ h4⟩
      have hu : d.uuid (strVal (if j = 0 then r.id else env.fresh (c.uuids - 1))) = .ok (uuidOf (if j = 0 then r.id else env.fresh (c.uuids - 1))) := by
        split
        · exact hid
        · exact hfr _
      obtain ⟨p, h5, h6⟩ := pattern_ok ho hd r (hg src (by simp) (by simp [hread])) _ _ c.written _ hu _ s3
      exact ⟨p, h5, h6⟩

theorem rule_loop (uuidOf : Str → Nat) (read : Str → Str → Option (List Elem)) (hfr : ∀ n, d.uuid (strVal (env.fresh n)) = .ok (uuidOf (env.fresh n))) :
    ∀ (rules : List PdbRule) (c : Counters), (∀ x ∈ sources env rules, read x.2.1 x.2.2.2 ≠ none → GoodPdbRule x.1) → (∀ r ∈ rules, d.uuid (strVal r.id) = .ok (uuidOf r.id)) →
      (∀ x ∈ sources env rules, PdbReading (frontOf env x.2.1) x.2.2.2 (read x.2.1 x.2.2.2)) →
        Each (fun x v => ∃ p, IsPattern d v p ∧ IsExpected env uuidOf x p)
          ((expectedFrom env read (sources env rules) c.uuids).zipIdx c.written) (ruleLoop env rules c).1 := by
  intro rules
  induction rules with
  | nil => intro c _ _ _; exact .nil
  | cons r rules ih =>
    intro c hg hid hr
    have ih := fun c hg => ih c hg (fun x hx => hid x (by simp [hx]))
    unfold ruleLoop
    have hs : sources env (r :: rules) = (match (env.programs r.ruleset).head? with
      | none => []
      | some prog => r.patterns.zipIdx.map fun x => (r, prog, x.2, x.1)) ++ sources env rules := rfl
    rw [hs] at hr hg ⊢
    rw [show (env.programs r.ruleset)[0]? = (env.programs r.ruleset).head? from List.head?_eq_getElem?.symm]
    cases hp : (env.programs r.ruleset).head? with
    | none =>
      rw [hp] at hr hg
      exact ih c (by simpa using hg) (by simpa using hr)
    | some prog =>
      rw [hp] at hr hg
      simp only at hr hg ⊢
      have hin : ∀ src ∈ r.patterns, ∃ i, (r, prog, i, src) ∈ (r.patterns.zipIdx.map fun x => (r, prog, x.2, x.1)) ++ sources env rules := by
        intro src hsrc
        obtain ⟨i, hi, rfl⟩ := List.getElem_of_mem hsrc
        exact ⟨i, List.mem_append_left _ (List.mem_map.mpr ⟨(r.patterns[i], i), by rw [List.mem_zipIdx_iff_getElem?]; simp [hi], rfl⟩)⟩
      obtain ⟨c', h1, h2, h3, h4⟩ := pattern_loop ho hd uuidOf read r prog (hid r (by simp)) hfr r.patterns 0 c
        (fun src hsrc => (hin src hsrc).elim fun i hi => hg _ hi) (fun src hsrc => (hin src hsrc).elim fun i hi => hr _ hi)
      simp only [if_true] at h1 h4
      have h5 := ih c' (fun x hx => hg x (List.mem_append_right _ hx)) (fun x hx => hr x (List.mem_append_right _ hx))
      rw [expectedFrom_append, List.zipIdx_append]
      simp only [List.length_map, List.length_zipIdx, h1]
      rw [h2, h3] at h5
      exact each_append h4 h5

theorem file_ok (uuidOf : Str → Nat) (read : Str → Str → Option (List Elem)) (rules : List PdbRule)
    (hfr : ∀ n, d.uuid (strVal (env.fresh n)) = .ok (uuidOf (env.fresh n))) (hid : ∀ r ∈ rules, d.uuid (strVal r.id) = .ok (uuidOf r.id))
    (hg : ∀ x ∈ sources env rules, read x.2.1 x.2.2.2 ≠ none → GoodPdbRule x.1) (hr : ∀ x ∈ sources env rules, PdbReading (frontOf env x.2.1) x.2.2.2 (read x.2.1 x.2.2.2)) :
    ∃ file, deserFile d (document env rules) = .ok (.ok file) ∧
      Each (IsExpected env uuidOf) (expectedFrom env read (sources env rules) 0).zipIdx file.patterns := by
  have h := rule_loop ho hd uuidOf read hfr rules ⟨0, 0⟩ hg hid hr
  have split : ∀ (xs : List (Expected × Nat)) (vs : List Val), Each (fun x v => ∃ p, IsPattern d v p ∧ IsExpected env uuidOf x p) xs vs →
      ∃ ps, Each (IsPattern d) vs ps ∧ Each (IsExpected env uuidOf) xs ps := by
    intro xs vs h
    induction h with
    | nil => exact ⟨[], .nil, .nil⟩
    | cons x v _ _ h _ ih =>
      obtain ⟨p, h1, h2⟩ := h
      obtain ⟨ps, h3, h4⟩ := ih
      exact ⟨p :: ps, .cons _ _ _ _ h1 h3, .cons _ _ _ _ h2 h4⟩
  obtain ⟨ps, h1, h2⟩ := split _ _ h
  refine ⟨⟨ps⟩, ?_, h2⟩
  rw [C63_file]
  obtain ⟨l', e1, e2, _, _, e5, _⟩ := hash_entries ho (l := [("patterns".toList, .arr (ruleLoop env rules ⟨0, 0⟩).1)]) (show ["patterns".toList].Nodup by decide)
  refine ⟨l', e1, ?_, _, e5 "patterns".toList _ (.head _), ⟨_, hd.seq _, h1⟩⟩
  intro k w hw
  obtain ⟨s, hs, rfl⟩ := e2 k w hw
  simp only [List.mem_cons, Prod.mk.injEq, List.not_mem_nil, or_false] at hs
  obtain ⟨rfl, rfl⟩ := hs
  exact ⟨rfl, ps, _, hd.seq _, h1⟩

omit ho hd in
/-- C92 (partial): if every example of a rule with a converted pattern has values, the file written by the script can be loaded, whatever the order of the rules and of the keys of its objects,
and holds exactly the expected patterns in the order of the rules. -/
theorem C92_file_partial (uuidOf : Str → Nat) (read : Str → Str → Option (List Elem)) (rules : List PdbRule) (hi : ScriptInput env d uuidOf read rules)
    (hv : HaveValues env read rules) :
    ∃ file, deserFile d (document env rules) = .ok (.ok file) ∧
      Each (IsExpected env uuidOf) (expectedFrom env read (sources env rules) 0).zipIdx file.patterns :=
  file_ok hi.order hi.faithful uuidOf read rules hi.fresh hi.ids (goodPdbRule hi.keys hv) hi.reading

/-! ### What cannot be loaded -/

omit hd in
theorem hash_mem (l : List (Str × Val)) : ∃ l', hashVal env l = .obj l' ∧ ∀ s v, (s, v) ∈ l → (strVal s, v) ∈ l' :=
  ⟨_, rfl, fun s v h => (ho (l.map fun e => (strVal e.1, e.2))).mem_iff.mpr (List.mem_map.mpr ⟨(s, v), h, rfl⟩)⟩

omit ho hd in
theorem each_right {α β : Type} {R : α → β → Prop} {as : List α} {bs : List β} (h : Each R as bs) : ∀ b ∈ bs, ∃ a ∈ as, R a b := by
  induction h with
  | nil => intro b hb; cases hb
  | cons a b as bs h _ ih =>
    intro c hc
    rcases List.mem_cons.mp hc with rfl | hc
    · exact ⟨a, List.mem_cons_self .., h⟩
    · obtain ⟨x, hx, hr⟩ := ih c hc
      exact ⟨x, List.mem_cons_of_mem _ hx, hr⟩

omit ho hd in
theorem each_left {α β : Type} {R : α → β → Prop} {as : List α} {bs : List β} (h : Each R as bs) : ∀ a ∈ as, ∃ b ∈ bs, R a b := by
  induction h with
  | nil => intro a ha; cases ha
  | cons a b as bs h _ ih =>
    intro c hc
    rcases List.mem_cons.mp hc with rfl | hc
    · exact ⟨b, List.mem_cons_self .., h⟩
    · obtain ⟨x, hx, hr⟩ := ih c hc
      exact ⟨x, List.mem_cons_of_mem _ hx, hr⟩

/-- A pattern of the document whose rule has an example without values is no pattern. -/
theorem pattern_bad (hn : ∀ l, d.entries .null ≠ .ok l) (r : PdbRule) (e : PdbExample) (he : e ∈ r.examples) (hv : e.values = none) (uuid text name : Val) (p : Pattern)
    (h : IsPattern d (hashVal env ([("uuid".toList, uuid), ("pattern".toList, text), ("name".toList, name),
          ("test_messages".toList, .arr (testMessages env r.examples))] ++ extras env r)) p) : False := by
  obtain ⟨l', e1, e2⟩ := hash_mem ho ([("uuid".toList, uuid), ("pattern".toList, text), ("name".toList, name),
          ("test_messages".toList, .arr (testMessages env r.examples))] ++ extras env r)
  rw [e1] at h
  obtain ⟨l, e0, h, _⟩ := h
  injection e0 with e0
  subst e0
  rcases h _ _ (e2 "test_messages".toList (.arr (testMessages env r.examples)) (by simp)) with
      ⟨h, _⟩ | ⟨h, _⟩ | ⟨h, _⟩ | ⟨h, _⟩ | ⟨h, _⟩ | ⟨_, ms, l, h1, h2⟩
  iterate 5 exact absurd (Val.str.inj h) (by decide)
  rw [hd.seq] at h1
  injection h1 with h1
  subst h1
  obtain ⟨m, _, h3⟩ := each_left h2 _ (List.mem_map.mpr ⟨e, he, rfl⟩)
  obtain ⟨l'', e3, e4⟩ := hash_mem ho [("message".toList, strVal ((if env.withProgram then e.program ++ ": ".toList else []) ++ e.message)),
      ("values".toList, match e.values with
        | some vs => hashVal env (vs.map fun v => (v.1, strVal v.2))
        | none => .null)]
  obtain ⟨l, e0, h3, _⟩ := h3
  have e0 := e3.symm.trans e0
  injection e0 with e0
  subst e0
  rcases h3 _ _ (e4 "values".toList _ (.tail _ (.head _))) with ⟨h, _⟩ | ⟨_, m, l, _, h4, _⟩ | ⟨h, _⟩
  · exact absurd (Val.str.inj h) (by decide)
  · rw [hv] at h4
    exact hn l h4
  · exact absurd (Val.str.inj h) (by decide)

omit ho hd in
theorem patternLoop_mem (r : PdbRule) (prog : Str) (src s : Str) (h1 : p2p src = some s) (h2 : truthy s = true) :
    ∀ (srcs : List Str) (uuid : Str) (c : Counters), src ∈ srcs → ∃ id text name : Val, hashVal env ([("uuid".toList, id), ("pattern".toList, text),
        ("name".toList, name), ("test_messages".toList, .arr (testMessages env r.examples))] ++ extras env r) ∈ (patternLoop env r prog srcs uuid c).1 := by
  intro srcs
  induction srcs with
  | nil => intro _ _ h; cases h
  | cons a srcs ih =>
    intro uuid c h
    unfold patternLoop
    by_cases ha : src = a
    · subst ha
      rw [h1]
      simp only [h2, if_true]
      exact ⟨_, _, _, .head _⟩
    · have hm : src ∈ srcs := by
        rcases List.mem_cons.mp h with h | h
        · exact absurd h ha
        · exact h
      split
      · split
        · obtain ⟨u, t, n, h⟩ := ih (env.fresh c.uuids) ⟨c.written + 1, c.uuids + 1⟩ hm
          exact ⟨u, t, n, .tail _ h⟩
        · exact ih _ _ hm
      · exact ih _ _ hm

omit ho hd in
theorem ruleLoop_mem (x : PdbRule × Str × Nat × Str) (s : Str) (h1 : p2p x.2.2.2 = some s) (h2 : truthy s = true) :
    ∀ (rules : List PdbRule) (c : Counters), x ∈ sources env rules → ∃ id text name : Val, hashVal env ([("uuid".toList, id), ("pattern".toList, text),
        ("name".toList, name), ("test_messages".toList, .arr (testMessages env x.1.examples))] ++ extras env x.1) ∈ (ruleLoop env rules c).1 := by
  intro rules
  induction rules with
  | nil => intro _ h; cases h
  | cons r rules ih =>
    intro c h
    have hs : sources env (r :: rules) = (match (env.programs r.ruleset).head? with
      | none => []
      | some prog => r.patterns.zipIdx.map fun x => (r, prog, x.2, x.1)) ++ sources env rules := rfl
    rw [hs] at h
    unfold ruleLoop
    rw [show (env.programs r.ruleset)[0]? = (env.programs r.ruleset).head? from List.head?_eq_getElem?.symm]
    cases hp : (env.programs r.ruleset).head? with
    | none =>
      rw [hp] at h
      exact ih c (by simpa using h)
    | some prog =>
      rw [hp] at h
      rcases List.mem_append.mp h with h | h
      · obtain ⟨y, hy, rfl⟩ := List.mem_map.mp h
        obtain ⟨u, t, n, h⟩ := patternLoop_mem (env := env) r prog y.1 s h1 h2 r.patterns r.id c (List.fst_mem_of_mem_zipIdx hy)
        exact ⟨u, t, n, List.mem_append_left _ h⟩
      · obtain ⟨u, t, n, h⟩ := ih (patternLoop env r prog r.patterns r.id c).2 h
        exact ⟨u, t, n, List.mem_append_right _ h⟩

omit ho hd in
/-- C92: for libraries that do not take `null` for an object, the file can be loaded exactly if every example of a rule with a converted pattern has values. -/
theorem C92_exactly (uuidOf : Str → Nat) (read : Str → Str → Option (List Elem)) (rules : List PdbRule) (hi : ScriptInput env d uuidOf read rules)
    (hn : ∀ l, d.entries .null ≠ .ok l) : (∃ file, deserFile d (document env rules) = .ok (.ok file)) ↔ HaveValues env read rules := by
  constructor
  · rintro ⟨file, hf⟩ x hx hr e he hv
    rw [C63_file] at hf
    obtain ⟨l', e1, e2⟩ := hash_mem hi.order [("patterns".toList, .arr (ruleLoop env rules ⟨0, 0⟩).1)]
    obtain ⟨l, e3, hf, _⟩ := hf
    rw [document, e1] at e3
    injection e3 with e3
    subst e3
    obtain ⟨_, ps, vs, h1, h2⟩ := hf _ _ (e2 _ _ (.head _))
    rw [hi.faithful.seq] at h1
    injection h1 with h1
    subst h1
    cases hes : read x.2.1 x.2.2.2 with
    | none => exact hr hes
    | some es =>
      have := hi.reading x hx
      rw [hes] at this
      obtain ⟨s, s1, s2, _⟩ := reading_some this
      obtain ⟨u, t, n, hm⟩ := ruleLoop_mem (env := env) x s s1 s2 rules ⟨0, 0⟩ hx
      obtain ⟨p, _, hp⟩ := each_left h2 _ hm
      exact pattern_bad hi.order hi.faithful hn x.1 e he hv u t n p hp
  · intro hv
    obtain ⟨file, h, _⟩ := C92_file_partial uuidOf read rules hi hv
    exact ⟨file, h⟩

/-! ### Names and uuids -/

omit ho hd in
theorem digits_inj {m n : Nat} (h : (toString m).toList = (toString n).toList) : m = n := by
  have h : Nat.toDigits 10 m = Nat.toDigits 10 n := by simpa using h
  have := congrArg (fun l => Nat.ofDigitChars 10 l 0) h
  simpa [Nat.ofDigitChars_ten_toDigits] using this

omit ho hd in
theorem underscore_split {a b c e : Str} (h : a ++ '_' :: b = c ++ '_' :: e) (hb : '_' ∉ b) (he : '_' ∉ e) : b = e := by
  have h1 : '_' :: b <:+ c ++ '_' :: e := ⟨a, h⟩
  have h2 : '_' :: e <:+ c ++ '_' :: e := ⟨c, rfl⟩
  have aux : ∀ {x y : Str}, '_' :: x <:+ c ++ '_' :: e → '_' :: y <:+ c ++ '_' :: e → '_' ∉ y → x.length < y.length → False := by
    intro x y h1 h2 hy hl
    have h3 : y <:+ c ++ '_' :: e := (List.suffix_cons _ _).trans h2
    have h4 := List.suffix_of_suffix_length_le h1 h3 (by simp; omega)
    exact hy (h4.subset (by simp))
  have hlen : b.length = e.length := by
    rcases Nat.lt_trichotomy b.length e.length with hl | hl | hl
    · exact (aux h1 h2 he hl).elim
    · exact hl
    · exact (aux h2 h1 hb hl).elim
  have := List.suffix_of_suffix_length_le h1 h2 (by simp; omega)
  have := this.eq_of_length (by simp; omega)
  simpa using this

omit ho hd in
theorem digits_free (n : Nat) : '_' ∉ (toString n).toList := by simp [Nat.underscore_not_in_toDigits]

omit ho hd in
theorem name_inj {a b : Str} {m n : Nat} (h : encode (a ++ '_' :: (toString m).toList) = encode (b ++ '_' :: (toString n).toList)) : m = n :=
  digits_inj (underscore_split (encode_inj h) (digits_free m) (digits_free n))

omit ho hd in
theorem names_nodup (uuidOf : Str → Nat) (xs : List Expected) (n : Nat) (ps : List Pattern) (h : Each (IsExpected env uuidOf) (xs.zipIdx n) ps) :
    (ps.map (·.name)).Nodup ∧ ∀ p ∈ ps, ∃ a m, n ≤ m ∧ p.name = some (encode (a ++ '_' :: (toString m).toList)) := by
  induction xs generalizing n ps with
  | nil => cases h; simp
  | cons x xs ih =>
    rw [List.zipIdx_cons] at h
    cases h with
    | cons _ p _ ps h1 h2 =>
      obtain ⟨i1, i2⟩ := ih _ _ h2
      have hname := h1.2.2.1
      refine ⟨?_, ?_⟩
      · rw [List.map_cons, List.nodup_cons]
        refine ⟨fun hm => ?_, i1⟩
        obtain ⟨q, hq, e⟩ := List.mem_map.mp hm
        obtain ⟨a, m, hm, e2⟩ := i2 q hq
        rw [e2, hname] at e
        injection e with e
        have := name_inj e
        simp at this
        omega
      · intro q hq
        rcases List.mem_cons.mp hq with rfl | hq
        · exact ⟨_, n, Nat.le_refl _, hname⟩
        · obtain ⟨a, m, hm, e2⟩ := i2 q hq
          exact ⟨a, m, by omega, e2⟩

/-- The text of the uuid of a pattern, and the number of patterns before it. -/
def uuidText (env : Env) (x : (PdbRule × Str × Nat × Str) × Nat) : Str := if x.1.2.2.1 = 0 then x.1.1.id else env.fresh (x.2 - 1)

omit ho hd in
theorem rule_uuids (r : PdbRule) (prog : Str) (hfi : ∀ m n, env.fresh m = env.fresh n → m = n) (hne : ∀ m, env.fresh m ≠ r.id) (srcs : List Str) (j g : Nat) :
    ((((srcs.zipIdx j).map fun x => (r, prog, x.2, x.1)).zipIdx (g + j)).map (uuidText env)).Nodup ∧
    ∀ u ∈ (((srcs.zipIdx j).map fun x => (r, prog, x.2, x.1)).zipIdx (g + j)).map (uuidText env),
      (j = 0 ∧ u = r.id) ∨ ∃ m, g + j ≤ m + 1 ∧ m + 1 < g + j + srcs.length ∧ (j = 0 → g + 1 ≤ m + 1) ∧ u = env.fresh m := by
  induction srcs generalizing j with
  | nil => simp
  | cons src srcs ih =>
    obtain ⟨h1, h2⟩ := ih (j + 1)
    rw [show g + (j + 1) = g + j + 1 by omega] at h1 h2
    simp only [List.zipIdx_cons, List.map_cons, List.nodup_cons, List.length_cons]
    by_cases hj : j = 0
    · subst hj
      refine ⟨⟨fun hm => ?_, h1⟩, fun u hu => ?_⟩
      · rcases h2 _ hm with ⟨h, _⟩ | ⟨m, _, _, _, e⟩
        · omega
        · simp only [uuidText, if_true] at e
          exact hne m e.symm
      · rcases List.mem_cons.mp hu with rfl | hu
        · exact .inl ⟨rfl, by simp [uuidText]⟩
        · rcases h2 _ hu with ⟨h, _⟩ | ⟨m, a, b, _, e⟩
          · omega
          · exact .inr ⟨m, by omega, by omega, fun _ => by omega, e⟩
    · have e0 : uuidText env ((r, prog, j, src), g + j) = env.fresh (g + j - 1) := by simp [uuidText, hj]
      rw [e0]
      refine ⟨⟨fun hm => ?_, h1⟩, fun u hu => ?_⟩
      · rcases h2 _ hm with ⟨h, _⟩ | ⟨m, a, _, _, e⟩
        · omega
        · have := hfi _ _ e; omega
      · rcases List.mem_cons.mp hu with rfl | hu
        · exact .inr ⟨g + j - 1, by omega, by omega, fun h => absurd h hj, rfl⟩
        · rcases h2 _ hu with ⟨h, _⟩ | ⟨m, a, b, _, e⟩
          · omega
          · exact .inr ⟨m, by omega, by omega, fun h => absurd h hj, e⟩

omit ho hd in
theorem all_uuids (hfi : ∀ m n, env.fresh m = env.fresh n → m = n) (rules : List PdbRule) (hne : ∀ r ∈ rules, ∀ m, env.fresh m ≠ r.id)
    (hids : (rules.map (·.id)).Nodup) (g : Nat) :
    (((sources env rules).zipIdx g).map (uuidText env)).Nodup ∧
    ∀ u ∈ ((sources env rules).zipIdx g).map (uuidText env), (∃ r ∈ rules, u = r.id) ∨ ∃ m, g ≤ m ∧ u = env.fresh m := by
  induction rules generalizing g with
  | nil => simp [sources]
  | cons r rules ih =>
    rw [List.map_cons, List.nodup_cons] at hids
    have ih := ih (fun x hx => hne x (by simp [hx])) hids.2
    have hs : sources env (r :: rules) = (match (env.programs r.ruleset).head? with
      | none => []
      | some prog => r.patterns.zipIdx.map fun x => (r, prog, x.2, x.1)) ++ sources env rules := rfl
    rw [hs]
    cases hp : (env.programs r.ruleset).head? with
    | none =>
      obtain ⟨h1, h2⟩ := ih g
      refine ⟨h1, fun u hu => ?_⟩
      rcases h2 u hu with ⟨r', hr', e⟩ | h
      · exact .inl ⟨r', by simp [hr'], e⟩
      · exact .inr h
    | some prog =>
      obtain ⟨h1, h2⟩ := ih (g + r.patterns.length)
      obtain ⟨h3, h4⟩ := rule_uuids r prog hfi (hne r (by simp)) r.patterns 0 g
      simp only [Nat.add_zero] at h3 h4
      simp only
      rw [List.zipIdx_append, List.map_append]
      simp only [List.length_map, List.length_zipIdx]
      refine ⟨?_, fun u hu => ?_⟩
      · rw [List.nodup_append]
        refine ⟨h3, h1, fun a ha b hb e => ?_⟩
        subst e
        rcases h4 _ ha with ⟨_, e1⟩ | ⟨m, _, hm, hm2, e1⟩ <;> rcases h2 _ hb with ⟨r', hr', e2⟩ | ⟨n, hn, e2⟩
        · exact hids.1 (List.mem_map.mpr ⟨r', hr', by rw [← e2, e1]⟩)
        · exact hne r (by simp) n (by rw [← e2, e1])
        · exact hne r' (by simp [hr']) m (by rw [← e2, e1])
        · have := hfi m n (by rw [← e2, e1]); omega
      · rcases List.mem_append.mp hu with hu | hu
        · rcases h4 _ hu with ⟨_, e1⟩ | ⟨m, _, _, hm2, e1⟩
          · exact .inl ⟨r, by simp, e1⟩
          · exact .inr ⟨m, by have := hm2 trivial; omega, e1⟩
        · rcases h2 _ hu with ⟨r', hr', e⟩ | ⟨m, hm, e⟩
          · exact .inl ⟨r', by simp [hr'], e⟩
          · exact .inr ⟨m, by omega, e⟩

omit ho hd in
theorem expected_uuids (read : Str → Str → Option (List Elem)) (items : List ((PdbRule × Str × Nat × Str) × Nat)) :
    ((items.filterMap fun x => (read x.1.2.1 x.1.2.2.2).map fun es => (⟨x.1.1, if x.1.2.2.1 = 0 then x.1.1.id else env.fresh (x.2 - 1), es⟩ : Expected)).map (·.uuid)).Sublist
      (items.map (uuidText env)) := by
  induction items with
  | nil => simp
  | cons x items ih =>
    rw [List.filterMap_cons]
    cases read x.1.2.1 x.1.2.2.2 with
    | none => exact ih.cons _
    | some es => exact ih.cons_cons _

omit ho hd in
theorem each_uuids (uuidOf : Str → Nat) (xs : List Expected) (n : Nat) (ps : List Pattern) (h : Each (IsExpected env uuidOf) (xs.zipIdx n) ps) :
    ps.map (·.uuid) = (xs.map (·.uuid)).map uuidOf := by
  induction xs generalizing n ps with
  | nil => cases h; rfl
  | cons x xs ih =>
    rw [List.zipIdx_cons] at h
    cases h with
    | cons _ p _ ps h1 h2 => simp [ih _ _ h2, h1.1]

omit ho hd in
/-- C93: no two patterns of the file have the same name or the same uuid, if the ids of the rules and the new uuids are all different. -/
theorem C93_distinct (uuidOf : Str → Nat) (read : Str → Str → Option (List Elem)) (rules : List PdbRule)
    (hi : ScriptInput env d uuidOf read rules) (hv : HaveValues env read rules)
    (hdi : DistinctIds env uuidOf rules) (file : PatternFile) (hf : deserFile d (document env rules) = .ok (.ok file)) :
    (file.patterns.map (·.name)).Nodup ∧ (file.patterns.map (·.uuid)).Nodup := by
  obtain ⟨file', h1, h2⟩ := C92_file_partial uuidOf read rules hi hv
  rw [hf] at h1
  simp only [Except.ok.injEq] at h1
  subst h1
  refine ⟨(names_nodup _ _ _ _ h2).1, ?_⟩
  rw [each_uuids _ _ _ _ h2]
  have h3 := (all_uuids hdi.fresh rules hdi.apart hdi.ids 0).1
  have h4 := h3.sublist (expected_uuids read ((sources env rules).zipIdx 0))
  exact List.pairwise_map.mpr (h4.imp fun h e => h (hdi.uuid _ _ e))

omit ho hd in
/-- C94 (partial): a rule whose first pattern is converted is in the file under its own id. -/
theorem C94_rule_found_partial (uuidOf : Str → Nat) (read : Str → Str → Option (List Elem)) (rules : List PdbRule)
    (hi : ScriptInput env d uuidOf read rules) (hv : HaveValues env read rules)
    (r : PdbRule) (hmem : r ∈ rules) (prog : Str) (hp : (env.programs r.ruleset).head? = some prog) (src : Str) (srcs : List Str) (hsrc : r.patterns = src :: srcs)
    (es : List Elem) (hes : read prog src = some es) (file : PatternFile) (hf : deserFile d (document env rules) = .ok (.ok file)) :
    ∃ p ∈ file.patterns, p.uuid = uuidOf r.id ∧ p.pattern = meant es := by
  obtain ⟨file', h1, h2⟩ := C92_file_partial uuidOf read rules hi hv
  rw [hf] at h1
  simp only [Except.ok.injEq] at h1
  subst h1
  have hx : ∃ x ∈ expectedFrom env read (sources env rules) 0, x.uuid = r.id ∧ x.elems = es := by
    have : (r, prog, 0, src) ∈ sources env rules := by
      refine List.mem_flatMap.mpr ⟨r, hmem, ?_⟩
      rw [hp, hsrc]
      simp
    obtain ⟨i, hi, e⟩ := List.getElem_of_mem this
    refine ⟨⟨r, r.id, es⟩, List.mem_filterMap.mpr ⟨((r, prog, 0, src), i), ?_, ?_⟩, rfl, rfl⟩
    · rw [List.mem_zipIdx_iff_getElem?]; simp [hi, e]
    · simp [hes]
  obtain ⟨x, hx, e1, e2⟩ := hx
  have found : ∀ (xs : List Expected) (n : Nat) (ps : List Pattern), Each (IsExpected env uuidOf) (xs.zipIdx n) ps → x ∈ xs →
      ∃ p ∈ ps, p.uuid = uuidOf x.uuid ∧ p.pattern = meant x.elems := by
    intro xs
    induction xs with
    | nil => intro _ _ _ h; cases h
    | cons y ys ih =>
      intro n ps h hm
      rw [List.zipIdx_cons] at h
      cases h with
      | cons _ p _ ps h1 h2 =>
        rcases List.mem_cons.mp hm with rfl | hm
        · exact ⟨p, by simp, h1.1, h1.2.1⟩
        · obtain ⟨q, hq, h⟩ := ih _ _ h2 hm
          exact ⟨q, by simp [hq], h⟩
  have := found _ _ _ h2 hx
  rwa [e1, e2] at this

omit ho hd in
/-- C94: if all ids are different, a rule is in the file under its own id exactly if its ruleset has a program and its first pattern is converted. -/
theorem C94_rule_found_iff (uuidOf : Str → Nat) (read : Str → Str → Option (List Elem)) (rules : List PdbRule)
    (hi : ScriptInput env d uuidOf read rules) (hv : HaveValues env read rules) (hdi : DistinctIds env uuidOf rules)
    (r : PdbRule) (hmem : r ∈ rules) (file : PatternFile) (hf : deserFile d (document env rules) = .ok (.ok file)) :
    (∃ p ∈ file.patterns, p.uuid = uuidOf r.id) ↔
      ∃ prog src, (env.programs r.ruleset).head? = some prog ∧ r.patterns.head? = some src ∧ read prog src ≠ none := by
  constructor
  · rintro ⟨p, hp, hu⟩
    obtain ⟨file', h1, h2⟩ := C92_file_partial uuidOf read rules hi hv
    rw [hf] at h1
    simp only [Except.ok.injEq] at h1
    subst h1
    obtain ⟨x, hx, h3⟩ := each_right h2 p hp
    have hx := List.fst_mem_of_mem_zipIdx hx
    obtain ⟨y, hy, e⟩ := List.mem_filterMap.mp hx
    cases hes : read y.1.2.1 y.1.2.2.2 with
    | none => rw [hes] at e; cases e
    | some es =>
      rw [hes] at e
      simp only [Option.map_some, Option.some.injEq] at e
      have hid : x.1.uuid = r.id := hdi.uuid _ _ (h3.1.symm.trans hu)
      rw [← e] at hid
      simp only at hid
      have hy := List.fst_mem_of_mem_zipIdx hy
      split at hid
      · rename_i h0
        have hr : y.1.1 = r := by
          have h5 := sources_rule hy
          have hnd := hdi.ids
          obtain ⟨i, hi', ei⟩ := List.getElem_of_mem h5
          obtain ⟨j, hj, ej⟩ := List.getElem_of_mem hmem
          have : i = j := by
            have := List.pairwise_iff_getElem.mp hnd
            false_or_by_contra
            rename_i hne
            rcases Nat.lt_or_gt_of_ne hne with hl | hl
            · exact this i j (by simpa using hi') (by simpa using hj) hl (by simp [ei, ej, hid])
            · exact this j i (by simpa using hj) (by simpa using hi') hl (by simp [ei, ej, hid])
          subst this
          rw [← ei, ← ej]
        obtain ⟨r', h6, h7⟩ := List.mem_flatMap.mp hy
        split at h7
        · cases h7
        · rename_i prog hprog
          obtain ⟨z, hz, ez⟩ := List.mem_map.mp h7
          rw [← ez] at hr h0 hes
          simp only at hr h0 hes
          subst hr
          refine ⟨prog, z.1, hprog, ?_, by rw [hes]; simp⟩
          rw [List.mem_zipIdx_iff_getElem?, h0] at hz
          rw [List.head?_eq_getElem?]
          exact hz
      · exact absurd hid (hdi.apart r hmem _)
  · rintro ⟨prog, src, h1, h2, h3⟩
    cases hes : read prog src with
    | none => exact absurd hes h3
    | some es =>
      cases hp : r.patterns with
      | nil => rw [hp] at h2; cases h2
      | cons a srcs =>
        rw [hp] at h2
        simp only [List.head?_cons, Option.some.injEq] at h2
        subst h2
        obtain ⟨p, hp1, hp2, _⟩ := C94_rule_found_partial uuidOf read rules hi hv r hmem prog h1 a srcs hp es hes file hf
        exact ⟨p, hp1, hp2⟩

/-! ### An example -/

/-- Libraries that accept every string as a uuid. -/
def pdbDeps : Deps where
  string := fun v => match v with | .str s => .ok s | _ => .error (.custom [])
  seq := fun v => match v with | .arr l => .ok l | _ => .error (.custom [])
  entries := fun v => match v with | .obj l => .ok l | _ => .error (.custom [])
  uuid := fun v => match v with | .str s => .ok (s.foldr (fun b n => n * 256 + b.toNat + 1) 0) | _ => .error (.custom [])
  wrongType := fun _ => .custom []
  json := fun _ => .error (.custom [])
  yaml := fun _ => .error (.custom [])
  openFile := fun _ => .error 0

/-- The uuid a text stands for. -/
def pdbUuid (s : Str) : Nat := (encode s).foldr (fun b n => n * 256 + b.toNat + 1) 0

omit ho hd in
theorem pdbUuid_inj : ∀ a b, pdbUuid a = pdbUuid b → a = b := by
  have aux : ∀ x y : Bytes, x.foldr (fun b n => n * 256 + b.toNat + 1) 0 = y.foldr (fun b n => n * 256 + b.toNat + 1) 0 → x = y := by
    intro x
    induction x with
    | nil => intro y h; cases y with
      | nil => rfl
      | cons => simp at h
    | cons a x ih =>
      intro y h
      cases y with
      | nil => simp at h
      | cons b y =>
        simp only [List.foldr_cons] at h
        have ha := a.toNat_lt
        have hb := b.toNat_lt
        have h1 : x.foldr (fun b n => n * 256 + b.toNat + 1) 0 = y.foldr (fun b n => n * 256 + b.toNat + 1) 0 := by omega
        have h2 : a.toNat = b.toNat := by omega
        rw [ih y h1, UInt8.toNat_inj.mp h2]
  exact fun a b h => encode_inj (aux _ _ h)

/-- New ids, the keys of every object in reverse order, one program for every ruleset. -/
def pdbEnv (withProgram : Bool) : Env where
  withProgram := withProgram
  programs := fun _ => ["sshd".toList]
  fresh := fun n => 'f' :: List.replicate n 'x'
  order := List.reverse

/-- A pattern that is converted, one that is not, and another one that is. -/
def pdbPatterns : List Str := ["login @NUMBER:n@".toList, "by @PCRE:x:y@ here".toList, "exit".toList]

/-- A rule with these patterns and one example. -/
def pdbRule (patterns : List Str) (vs : Option (List (Str × Str))) : PdbRule where
  id := "r1".toList
  ruleset := "ssh".toList
  patterns := patterns
  examples := [⟨"sshd".toList, "login 12".toList, vs⟩]
  values := some [("a".toList, "$(b)".toList), ("c".toList, "d".toList)]
  tags := some ["t".toList]

/-- What the patterns of the rule stand for. -/
def pdbRead (_ src : Str) : Option (List Elem) :=
  if src = "login @NUMBER:n@".toList then some [.literal b!"sshd: login ", .int [] (some b!"n")]
  else if src = "exit".toList then some [.literal b!"sshd: exit"]
  else none

omit ho hd in
theorem pdb_input (patterns : List Str) (hp : ∀ s ∈ patterns, s ∈ pdbPatterns) (vs : Option (List (Str × Str))) (hvs : ∀ l, vs = some l → (l.map Prod.fst).Nodup) :
    ScriptInput (pdbEnv true) pdbDeps pdbUuid pdbRead [pdbRule patterns vs] where
  order := fun l => List.reverse_perm l
  faithful := ⟨fun _ => rfl, fun _ => rfl, fun _ => rfl⟩
  fresh := fun _ => rfl
  ids := fun _ _ => rfl
  keys := by
    intro r hr
    simp only [List.mem_singleton] at hr
    subst hr
    refine ⟨fun l hl => ?_, fun e he l hl => ?_⟩
    · simp only [pdbRule, Option.some.injEq] at hl
      subst hl
      decide
    · simp only [pdbRule, List.mem_singleton] at he
      subst he
      exact hvs l hl
  reading := by
    intro x hx
    have hx1 : x.2.1 = "sshd".toList ∧ x.2.2.2 ∈ patterns := by
      simp only [sources, pdbEnv, pdbRule, List.flatMap_cons, List.flatMap_nil, List.append_nil, List.head?_cons, List.mem_map] at hx
      obtain ⟨y, hy, rfl⟩ := hx
      exact ⟨rfl, List.fst_mem_of_mem_zipIdx hy⟩
    obtain ⟨r, prog, i, src⟩ := x
    simp only at hx1 ⊢
    rw [hx1.1]
    have hx2 : src = "login @NUMBER:n@".toList ∨ src = "by @PCRE:x:y@ here".toList ∨ src = "exit".toList := by
      have := hp src hx1.2
      simpa [pdbPatterns] using this
    clear hx hx1
    have hn : PdbName ["n".toList] b!"n" := sample_name (n := "n".toList) rfl (by decide) []
    have hnum : PdbPieceMeans (.parser "NUMBER".toList ["n".toList]) [.int [] (some b!"n")] := .parser _ _ _ (.number _ _ hn) (by decide)
    rcases hx2 with rfl | rfl | rfl
    · refine PdbReading.converted [.text "login ".toList, .parser "NUMBER".toList ["n".toList]] [.literal b!"login ", .int [] (some b!"n")] _
        ⟨[[.literal b!"login "], [.int [] (some b!"n")]], .cons _ _ _ _ (.text _ (by decide)) (.cons _ _ _ _ hnum .nil), by decide⟩ (by decide) (by decide) ?_
        ⟨[[.literal b!"sshd: "], [.literal b!"login "], [.int [] (some b!"n")]],
          .cons _ _ _ _ (.text _ (by decide)) (.cons _ _ _ _ (.text _ (by decide)) (.cons _ _ _ _ hnum .nil)), by decide⟩ ?_
      · simp only [CleanLiterals]; decide
      · simp only [CleanLiterals]; decide
    · exact PdbReading.unsupported [.text "by ".toList] "PCRE".toList ["x".toList, "y".toList] " here".toList (by simp [PdbPiece.Plain]) (by decide) (by decide)
    · refine PdbReading.converted [.text "exit".toList] [.literal b!"exit"] _
        ⟨[[.literal b!"exit"]], .cons _ _ _ _ (.text _ (by decide)) .nil, by decide⟩ (by decide) (by decide) ?_
        ⟨[[.literal b!"sshd: "], [.literal b!"exit"]], .cons _ _ _ _ (.text _ (by decide)) (.cons _ _ _ _ (.text _ (by decide)) .nil), by decide⟩ ?_
      · simp only [CleanLiterals]; decide
      · simp only [CleanLiterals]; decide

omit ho hd in
theorem pdb_values (patterns : List Str) (l : List (Str × Str)) : HaveValues (pdbEnv true) pdbRead [pdbRule patterns (some l)] := by
  intro x hx _ e he
  have hr := sources_rule hx
  simp only [List.mem_singleton] at hr
  rw [hr] at he
  simp only [pdbRule, List.mem_singleton] at he
  subst he
  simp

example : ∃ file, deserFile pdbDeps (document (pdbEnv true) [pdbRule pdbPatterns (some [("n".toList, "12".toList)])]) = .ok (.ok file) ∧
    Each (IsExpected (pdbEnv true) pdbUuid)
      [(⟨pdbRule pdbPatterns (some [("n".toList, "12".toList)]), "r1".toList, [.literal b!"sshd: login ", .int [] (some b!"n")]⟩, 0),
       (⟨pdbRule pdbPatterns (some [("n".toList, "12".toList)]), "fx".toList, [.literal b!"sshd: exit"]⟩, 1)] file.patterns :=
  C92_file_partial pdbUuid pdbRead [pdbRule pdbPatterns (some [("n".toList, "12".toList)])] (pdb_input _ (fun _ h => h) _ (by intro l h; injection h with h; subst h; decide)) (pdb_values _ _)

example (file : PatternFile) (h : deserFile pdbDeps (document (pdbEnv true) [pdbRule pdbPatterns (some [("n".toList, "12".toList)])]) = .ok (.ok file)) :
    (file.patterns.map (·.name)).Nodup ∧ (file.patterns.map (·.uuid)).Nodup :=
  C93_distinct pdbUuid pdbRead _ (pdb_input _ (fun _ h => h) _ (by intro l h; injection h with h; subst h; decide)) (pdb_values _ _)
    ⟨by simp, fun m n h => by simpa [pdbEnv] using h, fun r hr m => by simp only [List.mem_singleton] at hr; subst hr; simp [pdbEnv, pdbRule], pdbUuid_inj⟩ file h

omit ho hd in
/-- C92 (refuted): an example without values makes the whole file unreadable. -/
theorem C92_refuted : ¬ ∀ (env : Env) (d : Deps) (uuidOf : Str → Nat) (read : Str → Str → Option (List Elem)) (rules : List PdbRule),
    ScriptInput env d uuidOf read rules → ∃ file, deserFile d (document env rules) = .ok (.ok file) := by
  intro h
  obtain ⟨file, hf⟩ := h _ _ _ _ _ (pdb_input pdbPatterns (fun _ h => h) none (by simp))
  have : (match deserFile pdbDeps (document (pdbEnv true) [pdbRule pdbPatterns none]) with | .ok (.ok _) => true | _ => false) = false := by decide +kernel
  rw [hf] at this
  cases this

omit ho hd in
/-- C94 (refuted): a rule with a converted pattern need not be in the file under its own id: the id is lost with the first pattern. -/
theorem C94_refuted : ¬ ∀ (env : Env) (d : Deps) (uuidOf : Str → Nat) (read : Str → Str → Option (List Elem)) (rules : List PdbRule),
    ScriptInput env d uuidOf read rules → HaveValues env read rules → ∀ r ∈ rules, ∀ prog, (env.programs r.ruleset).head? = some prog →
      (∃ src ∈ r.patterns, read prog src ≠ none) → ∀ file, deserFile d (document env rules) = .ok (.ok file) → ∃ p ∈ file.patterns, p.uuid = uuidOf r.id := by
  intro h
  have h1 := h _ _ _ _ _ (pdb_input ["by @PCRE:x:y@ here".toList, "exit".toList] (by decide) (some []) (by intro l h; injection h with h; subst h; decide))
    (pdb_values _ _) _ (List.mem_singleton.mpr rfl) "sshd".toList rfl ⟨"exit".toList, by simp [pdbRule], by decide⟩
  have h2 : (match deserFile pdbDeps (document (pdbEnv true) [pdbRule ["by @PCRE:x:y@ here".toList, "exit".toList] (some [])]) with
    | .ok (.ok f) => decide (∀ p ∈ f.patterns, p.uuid ≠ pdbUuid "r1".toList) | _ => false) = true := by decide +kernel
  cases h3 : deserFile pdbDeps (document (pdbEnv true) [pdbRule ["by @PCRE:x:y@ here".toList, "exit".toList] (some [])]) with
  | error e => rw [h3] at h2; cases h2
  | ok r =>
    cases r with
    | error e => rw [h3] at h2; cases h2
    | ok f =>
      rw [h3] at h2
      obtain ⟨p, hp, e⟩ := h1 f h3
      exact of_decide_eq_true h2 p hp e

example : ∀ l, pdbDeps.entries .null ≠ .ok l := by intro l h; cases h

/-- A rule with an example without values does no harm if none of its patterns is converted. -/
example : HaveValues (pdbEnv true) pdbRead [pdbRule ["by @PCRE:x:y@ here".toList] none] := by
  intro x hx hr
  have : sources (pdbEnv true) [pdbRule ["by @PCRE:x:y@ here".toList] none] =
      [(pdbRule ["by @PCRE:x:y@ here".toList] none, "sshd".toList, 0, "by @PCRE:x:y@ here".toList)] := rfl
  rw [this, List.mem_singleton] at hx
  subst hx
  exact absurd (by decide) hr

end Verif
