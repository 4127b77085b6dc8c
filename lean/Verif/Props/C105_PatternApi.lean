import Verif.Spec.PatternApi
/-! C105: patterns as the user of the library makes and changes them. -/
namespace Verif
open Spec

theorem after_cons (p : Pattern) (c : PatternCall) (l : List PatternCall) : p.after (c :: l) = (p.call c).2.after l := rfl

theorem after_append (p : Pattern) (l l' : List PatternCall) : p.after (l ++ l') = (p.after l).after l' := by simp [Pattern.after, List.foldl_append]

theorem call_tokens (p : Pattern) (c : PatternCall) : (p.call c).2.pattern =
    match c with | .setPattern ts => ts | .popFirstToken => p.pattern.drop 1 | .popTestMessage => p.pattern := by
  cases c with
  | setPattern ts => rfl
  | popFirstToken =>
    simp only [Pattern.call, Pattern.popFirstToken]
    cases h : p.pattern with
    | nil => simp [h]
    | cons t ts => simp
  | popTestMessage =>
    simp only [Pattern.call, Pattern.popTestMessage]
    cases p.testMessages with
    | none => rfl
    | some ms =>
      cases h : ms.getLast? with
      | none => simp [h]
      | some m => simp [h]

theorem call_messages (p : Pattern) (c : PatternCall) : (p.call c).2.testMessages =
    match c with | .popTestMessage => p.testMessages.map List.dropLast | _ => p.testMessages := by
  cases c with
  | setPattern ts => rfl
  | popFirstToken =>
    simp only [Pattern.call, Pattern.popFirstToken]
    cases p.pattern with
    | nil => rfl
    | cons t ts => rfl
  | popTestMessage =>
    simp only [Pattern.call, Pattern.popTestMessage]
    cases h : p.testMessages with
    | none => simp [h]
    | some ms =>
      cases h' : ms.getLast? with
      | none =>
        have := List.getLast?_eq_none_iff.mp h'
        subst this
        simp [h]
      | some m => simp [h']

theorem after_tokens (p : Pattern) (l : List PatternCall) (h : NoSet l) : (p.after l).pattern = p.pattern.drop (tokenPops l) := by
  induction l generalizing p with
  | nil => rfl
  | cons c l ih =>
    rw [after_cons, ih _ fun c hc => h c (List.mem_cons_of_mem _ hc), call_tokens]
    cases c with
    | setPattern ts => exact absurd rfl (h _ (List.mem_cons_self ..) ts)
    | popFirstToken => simp only [tokenPops, List.drop_drop]; rw [Nat.add_comm]
    | popTestMessage => rfl

theorem after_messages (p : Pattern) (l : List PatternCall) :
    (p.after l).testMessages = p.testMessages.map fun ms => ms.take (ms.length - messagePops l) := by
  induction l generalizing p with
  | nil => cases h : p.testMessages <;> simp [Pattern.after, messagePops, h]
  | cons c l ih =>
    rw [after_cons, ih, call_messages]
    cases c with
    | setPattern ts => rfl
    | popFirstToken => rfl
    | popTestMessage =>
      cases p.testMessages with
      | none => rfl
      | some ms =>
        simp only [Option.map_some, messagePops, List.dropLast_eq_take, List.take_take, List.length_take]
        congr 2
        omega

/-- C105: whatever is called on a pattern, its name, uuid, values and tags stay as they are; its test messages are taken from the end, and there is a list of them
afterwards exactly if there was one. -/
theorem C105_rest (p : Pattern) (calls : List PatternCall) :
    (p.after calls).name = p.name ∧ (p.after calls).uuid = p.uuid ∧ (p.after calls).values = p.values ∧ (p.after calls).tags = p.tags ∧
      (p.after calls).testMessages = p.testMessages.map fun ms => ms.take (ms.length - messagePops calls) := by
  refine ⟨?_, ?_, ?_, ?_, after_messages p calls⟩
  all_goals
    induction calls generalizing p with
    | nil => rfl
    | cons c l ih =>
      rw [after_cons, ih]
      cases c with
      | setPattern ts => rfl
      | popFirstToken =>
        simp only [Pattern.call, Pattern.popFirstToken]
        cases p.pattern <;> rfl
      | popTestMessage =>
        simp only [Pattern.call, Pattern.popTestMessage]
        cases p.testMessages with
        | none => rfl
        | some ms => cases h : ms.getLast? <;> simp [h]

/-- C105: the tokens are taken from the front, in order, beginning anew whenever tokens are set; when all are taken there is none. -/
theorem C105_tokens (p : Pattern) (before since : List PatternCall) (ts : CompiledPattern) (h : NoSet since) :
    p.reply since .popFirstToken = .token (p.pattern[tokenPops since]?) ∧ (p.after since).pattern = p.pattern.drop (tokenPops since) ∧
    p.reply (before ++ .setPattern ts :: since) .popFirstToken = .token (ts[tokenPops since]?) ∧
    (p.after (before ++ .setPattern ts :: since)).pattern = ts.drop (tokenPops since) := by
  have key : ∀ q : Pattern, q.reply since .popFirstToken = .token (q.pattern[tokenPops since]?) := by
    intro q
    have h1 := after_tokens q since h
    unfold Pattern.reply
    simp only [Pattern.call, Pattern.popFirstToken]
    cases h2 : (q.after since).pattern with
    | nil =>
      rw [h2] at h1
      have := List.drop_eq_nil_iff.mp h1.symm
      simp [this]
    | cons t l =>
      rw [h2] at h1
      have : (q.pattern.drop (tokenPops since))[0]? = some t := by rw [← h1]; rfl
      rw [List.getElem?_drop, Nat.add_zero] at this
      simp [this]
  have e : p.after (before ++ .setPattern ts :: since) = (p.after (before ++ [.setPattern ts])).after since := by
    rw [← after_append]; simp
  have e2 : (p.after (before ++ [.setPattern ts])).pattern = ts := by rw [after_append]; rfl
  refine ⟨key p, after_tokens p since h, ?_, ?_⟩
  · have := key (p.after (before ++ [.setPattern ts]))
    rw [e2] at this
    unfold Pattern.reply at this ⊢
    rw [e]
    exact this
  · rw [e, after_tokens _ _ h, e2]

/-- C105: the test messages are taken from the end, one after the other, whatever else is called in between. -/
theorem C105_messages (p : Pattern) (calls : List PatternCall) :
    p.reply calls .popTestMessage = .message ((p.testMessages.getD []).reverse[messagePops calls]?) := by
  have h1 := after_messages p calls
  unfold Pattern.reply
  simp only [Pattern.call, Pattern.popTestMessage]
  cases hm : p.testMessages with
  | none => rw [hm] at h1; rw [h1]; rfl
  | some ms =>
    rw [hm] at h1
    rw [h1]
    simp only [Option.map_some, Option.getD_some]
    by_cases hn : messagePops calls < ms.length
    · have e : (ms.take (ms.length - messagePops calls)).getLast? = ms.reverse[messagePops calls]? := by
        rw [List.getLast?_eq_getElem?, List.length_take, List.getElem?_take, List.getElem?_reverse hn, if_pos (by omega)]
        congr 1
        omega
      rw [e]
      have : ∃ m, ms.reverse[messagePops calls]? = some m := ⟨_, List.getElem?_eq_getElem (by simpa using hn)⟩
      obtain ⟨m, hm⟩ := this
      rw [hm]
    · have e : ms.length - messagePops calls = 0 := by omega
      rw [e]
      simp only [List.take_zero, List.getLast?_nil]
      rw [List.getElem?_eq_none (by simp; omega)]

/-- C105: a pattern made from its parts has them, and one made from a uuid has this uuid and nothing else, whatever is called on it but setting its tokens. -/
theorem C105_new (name : Option Bytes) (uuid : Nat) (ts : CompiledPattern) (ms : Option (List TestMessage)) (vs : Option BMap) (tags : Option (List Bytes))
    (calls : List PatternCall) :
    (let p := (Pattern.new name uuid ts ms vs tags).after calls; p.name = name ∧ p.uuid = uuid ∧ p.values = vs ∧ p.tags = tags) ∧
    (Pattern.new name uuid ts ms vs tags).reply calls .popTestMessage = .message ((ms.getD []).reverse[messagePops calls]?) ∧
    (NoSet calls → (Pattern.new name uuid ts ms vs tags).reply calls .popFirstToken = .token (ts[tokenPops calls]?)) ∧
    (let p := (Pattern.withUuid uuid).after calls; p.name = none ∧ p.uuid = uuid ∧ p.values = none ∧ p.tags = none ∧ p.testMessages = none) ∧
    (Pattern.withUuid uuid).reply calls .popTestMessage = .message none ∧
    (NoSet calls → (Pattern.withUuid uuid).reply calls .popFirstToken = .token none) := by
  refine ⟨?_, C105_messages _ _, fun h => (C105_tokens _ [] calls [] h).1, ?_, ?_, ?_⟩
  · obtain ⟨h1, h2, h3, h4, _⟩ := C105_rest (Pattern.new name uuid ts ms vs tags) calls
    exact ⟨h1, h2, h3, h4⟩
  · obtain ⟨h1, h2, h3, h4, h5⟩ := C105_rest (Pattern.withUuid uuid) calls
    exact ⟨h1, h2, h3, h4, h5⟩
  · rw [C105_messages]; rfl
  · intro h
    rw [(C105_tokens (Pattern.withUuid uuid) [] calls [] h).1]
    rfl

/-- After some calls the second token of the set ones and the first of three test messages are next. -/
example :
    let p := Pattern.new none 7 [.literal b!"x"] (some [⟨b!"1", [], none⟩, ⟨b!"2", [], none⟩, ⟨b!"3", [], none⟩]) none none
    let calls : List PatternCall := [.popFirstToken, .popTestMessage, .setPattern [.literal b!"a", .literal b!"b"], .popFirstToken, .popTestMessage]
    p.reply calls .popFirstToken = .token (some (.literal b!"b")) ∧ p.reply calls .popTestMessage = .message (some ⟨b!"1", [], none⟩) ∧
      (p.after calls).uuid = 7 := by decide

/-- All tokens and messages are taken. -/
example :
    let p := Pattern.new none 7 [.literal b!"x"] (some [⟨b!"1", [], none⟩]) none none
    p.reply [.popFirstToken, .popTestMessage] .popFirstToken = .token none ∧ p.reply [.popFirstToken, .popTestMessage] .popTestMessage = .message none := by decide

end Verif
