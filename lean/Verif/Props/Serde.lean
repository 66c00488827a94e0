import Verif.Spec.JsonWritten
import Verif.Proofs.Print
import Verif.Proofs.JsonText
/-!
# C71, C72: values as JSON text, and their hash
-/
namespace Verif
open Spec

/-- C71: a value written as JSON text and read back is the same value, with tags, order and everything, provided its text does not nest
brackets deeper than `serde_json` allows; if it does, reading fails although writing succeeded. -/
theorem C71_value_round_trip (v : Value) :
    Serde.valueOfText (Serde.valueToText v) = if jsonNesting v ≤ 127 then some v else none := by
  rw [Serde.valueOfText, Serde.valueToText, Serde.parse_text, Option.bind_some, Serde.readValue_value, Serde.limit]
  by_cases h : jsonNesting v ≤ 127
  · rw [if_pos (by omega), if_pos h]
  · rw [if_neg (by omega), if_neg h]

/-- C71: in terms of quotes: up to 61 nested quotes always come back, 64 or more never. -/
theorem C71_quotes (v : Value) :
    (quoteNesting v ≤ 61 → Serde.valueOfText (Serde.valueToText v) = some v) ∧
    (64 ≤ quoteNesting v → Serde.valueOfText (Serde.valueToText v) = none) := by
  have hb := Serde.nesting_bounds v
  constructor <;> intro h
  · rw [C71_value_round_trip, if_pos (by omega)]
  · rw [C71_value_round_trip, if_neg (by omega)]

/-- C71: different values have different texts, however deep. -/
theorem C71_distinct (v w : Value) (h : Serde.valueToText v = Serde.valueToText w) : v = w := by
  have h1 := Serde.text_inj h
  have h2 := Serde.readValue_value v (jsonNesting v + jsonNesting w + 1)
  rw [h1, Serde.readValue_value w, if_pos (by omega), if_pos (by omega)] at h2
  exact (Option.some.inj h2).symm

/-- C71: so have different tokens, elements, entries, calls and error messages. -/
theorem C71_others_distinct :
    (∀ t t' : Token, Serde.tokenToText t = Serde.tokenToText t' → t = t') ∧
    (∀ e e' : Element, Serde.elementToText e = Serde.elementToText e' → e = e') ∧
    (∀ e e' : Entry, Serde.entryToText e = Serde.entryToText e' → e = e') ∧
    (∀ c c' : Call, Serde.callToText c = Serde.callToText c' → c = c') ∧
    (∀ m m' : Str, Serde.errorToText m = Serde.errorToText m' → m = m') := by
  have he : ∀ e e' : Element, Serde.element e = Serde.element e' → e = e' := by
    intro e e' h
    have h1 := Serde.readElement_element (d := 2) (by omega) e
    rw [h, Serde.readElement_element (by omega)] at h1
    exact (Option.some.inj h1).symm
  refine ⟨fun t t' h => ?_, fun e e' h => he _ _ (Serde.text_inj h), fun e e' h => ?_, fun c c' h => ?_, fun m m' h => ?_⟩
  · have h := Serde.text_inj h
    cases t <;> cases t' <;> simp [Serde.token, lit] at h ⊢
    all_goals first | exact h | exact he _ _ h
  · have h := Serde.text_inj h
    have h1 := Serde.readEntry_entry (d := 4) (by omega) e
    rw [h, Serde.readEntry_entry (by omega)] at h1
    exact (Option.some.inj h1).symm
  · have h := Serde.text_inj h
    have h1 := Serde.readCall_call (d := jsonNestings c.args + jsonNestings c'.args + 3) (by omega) c
    rw [h, Serde.readCall_call (by omega), if_pos (by omega), if_pos (by omega)] at h1
    exact (Option.some.inj h1).symm
  · have h := Serde.text_inj h
    simpa [Serde.wanderError] using h

theorem str_written (s : Str) : Serde.text (.str s) = literal s := by
  rw [Serde.text, Display.jsonStr, Display.jsonBody_escaped, literal]; rfl

theorem opt_written (o : Option Str) : Serde.text (Serde.optional o) = Written.opt o := by
  cases o with
  | none => rfl
  | some s => exact str_written s

theorem obj1_written (k q : Str) (h : Display.jsonStr k = q) (j : Json) :
    Serde.text (.obj [(k, j)]) = '{' :: (q ++ ':' :: (Serde.text j ++ ['}'])) := by
  simp [Serde.text, Serde.textMembers, h]

theorem obj2_written (k q k' q' : Str) (h : Display.jsonStr k = q) (h' : Display.jsonStr k' = q') (j j' : Json) :
    Serde.text (.obj [(k, j), (k', j')]) = '{' :: (q ++ ':' :: (Serde.text j ++ ',' :: (q' ++ ':' :: (Serde.text j' ++ ['}'])))) := by
  simp [Serde.text, Serde.textMembers, h, h']

theorem obj3_written (k q k' q' k'' q'' : Str) (h : Display.jsonStr k = q) (h' : Display.jsonStr k' = q') (h'' : Display.jsonStr k'' = q'')
    (j j' j'' : Json) : Serde.text (.obj [(k, j), (k', j'), (k'', j'')]) =
      '{' :: (q ++ ':' :: (Serde.text j ++ ',' :: (q' ++ ':' :: (Serde.text j' ++ ',' :: (q'' ++ ':' :: (Serde.text j'' ++ ['}'])))))) := by
  simp [Serde.text, Serde.textMembers, h, h', h'']

theorem elem_written (e : Element) : Serde.text (Serde.element e) = Written.elem e := by
  simp [Serde.element, Serde.text, Serde.textItems, opt_written, Written.elem, lit, literal, Display.jsonStr, Display.jsonBody_escaped]

theorem ent_written (e : Entry) : Serde.text (Serde.entry e) = Written.ent e := by
  cases e with
  | role f s r =>
    rewrite [Serde.entry, obj1_written (lit "Role") (lit "\"Role\"") (by decide +kernel),
      obj3_written (lit "first") (lit "\"first\"") (lit "second") (lit "\"second\"") (lit "role") (lit "\"role\"") (by decide +kernel) (by decide +kernel) (by decide +kernel),
      elem_written, elem_written, elem_written]
    show _ = lit "{\"Role\":{\"first\":" ++ Written.elem f ++ lit ",\"second\":" ++ Written.elem s ++ lit ",\"role\":" ++ Written.elem r ++ lit "}}"
    simp [lit]
  | ext e c =>
    rewrite [Serde.entry, obj1_written (lit "Extends") (lit "\"Extends\"") (by decide +kernel), obj2_written (lit "element") (lit "\"element\"") (lit "concept") (lit "\"concept\"") (by decide +kernel) (by decide +kernel),
      elem_written, elem_written]
    show _ = lit "{\"Extends\":{\"element\":" ++ Written.elem e ++ lit ",\"concept\":" ++ Written.elem c ++ lit "}}"
    simp [lit]
  | notExt e c =>
    rewrite [Serde.entry, obj1_written (lit "NotExtends") (lit "\"NotExtends\"") (by decide +kernel), obj2_written (lit "element") (lit "\"element\"") (lit "concept") (lit "\"concept\"") (by decide +kernel) (by decide +kernel),
      elem_written, elem_written]
    show _ = lit "{\"NotExtends\":{\"element\":" ++ Written.elem e ++ lit ",\"concept\":" ++ Written.elem c ++ lit "}}"
    simp [lit]

theorem items_written : ∀ js : List Json, Serde.textItems js = separated (lit ",") (js.map Serde.text)
  | [] => rfl
  | [j] => by simp [Serde.textItems, separated]
  | j :: k :: js => by
    rw [Serde.textItems, items_written (k :: js)]
    simp [separated, lit]

theorem arr_written (js : List Json) : Serde.text (.arr js) = '[' :: (separated (lit ",") (js.map Serde.text) ++ [']']) := by
  rw [Serde.text, items_written]

mutual
theorem val_written : ∀ v : Value, Serde.text (Serde.value v) = Written.val v
  | .element e => by
    rewrite [Serde.value, obj1_written (lit "Element") (lit "\"Element\"") (by decide +kernel), elem_written]
    show _ = lit "{\"Element\":" ++ Written.elem e ++ lit "}"
    simp [lit]
  | .network n => by
    have : Serde.text ∘ Serde.entry = Written.ent := funext ent_written
    rewrite [Serde.value, obj1_written (lit "Network") (lit "\"Network\"") (by decide +kernel), Serde.network, arr_written, List.map_map, this]
    show _ = lit "{\"Network\":[" ++ separated (lit ",") (n.toList.map Written.ent) ++ lit "]}"
    simp [lit]
  | .quote vs => by
    rewrite [Serde.value, obj1_written (lit "Quote") (lit "\"Quote\"") (by decide +kernel), arr_written, vals_written vs]
    show _ = lit "{\"Quote\":[" ++ separated (lit ",") (Written.vals vs) ++ lit "]}"
    simp [lit]
theorem vals_written : ∀ vs : List Value, (Serde.values vs).map Serde.text = Written.vals vs
  | [] => by rw [Serde.values, Written.vals]; rfl
  | v :: vs => by rw [Serde.values, Written.vals, List.map_cons, val_written v, vals_written vs]
end

theorem tok_written (t : Token) : Serde.text (Serde.token t) = Written.tok t := by
  cases t with
  | ws s => rewrite [Serde.token, obj1_written (lit "WS") (lit "\"WS\"") (by decide +kernel), str_written]; show _ = lit "{\"WS\":" ++ literal s ++ lit "}"; simp [lit]
  | string s => rewrite [Serde.token, obj1_written (lit "String") (lit "\"String\"") (by decide +kernel), str_written]; show _ = lit "{\"String\":" ++ literal s ++ lit "}"; simp [lit]
  | comment s => rewrite [Serde.token, obj1_written (lit "Comment") (lit "\"Comment\"") (by decide +kernel), str_written]; show _ = lit "{\"Comment\":" ++ literal s ++ lit "}"; simp [lit]
  | element e => rewrite [Serde.token, obj1_written (lit "Element") (lit "\"Element\"") (by decide +kernel), elem_written]; show _ = lit "{\"Element\":" ++ Written.elem e ++ lit "}"; simp [lit]
  | _ => decide +kernel

theorem call_written (c : Call) : Serde.callToText c = Written.call c := by
  have : Serde.callToText c = Serde.text (.obj [(lit "name", Serde.element c.name), (lit "arguments", .arr (Serde.values c.args))]) := rfl
  rewrite [this, obj2_written (lit "name") (lit "\"name\"") (lit "arguments") (lit "\"arguments\"") (by decide +kernel) (by decide +kernel),
    elem_written, arr_written, vals_written]
  show _ = lit "{\"name\":" ++ Written.elem c.name ++ lit ",\"arguments\":[" ++ separated (lit ",") (Written.vals c.args) ++ lit "]}"
  simp [lit]

/-- C71: the texts written, exactly (templates in `Spec/JsonWritten`). -/
theorem C71_written :
    (∀ v, Serde.valueToText v = Written.val v) ∧ (∀ e, Serde.entryToText e = Written.ent e) ∧
    (∀ e, Serde.elementToText e = Written.elem e) ∧ (∀ c, Serde.callToText c = Written.call c) ∧
    (∀ t, Serde.tokenToText t = Written.tok t) ∧ (∀ m, Serde.errorToText m = literal m) := by
  refine ⟨val_written, ent_written, elem_written, call_written, tok_written, str_written⟩

/-- C71: elements, entries and error messages always come back; a call does unless an argument is too deep. -/
theorem C71_others_round_trip :
    (∀ e : Element, Serde.elementOfText (Serde.elementToText e) = some e) ∧
    (∀ e : Entry, Serde.entryOfText (Serde.entryToText e) = some e) ∧
    (∀ m : Str, Serde.errorOfText (Serde.errorToText m) = some m) ∧
    (∀ c : Call, Serde.callOfText (Serde.callToText c) = if ∀ v ∈ c.args, jsonNesting v ≤ 125 then some c else none) := by
  refine ⟨fun e => ?_, fun e => ?_, fun m => ?_, fun c => ?_⟩
  · rw [Serde.elementOfText, Serde.elementToText, Serde.parse_text, Option.bind_some, Serde.readElement_element (by decide)]
  · rw [Serde.entryOfText, Serde.entryToText, Serde.parse_text, Option.bind_some, Serde.readEntry_entry (by decide)]
  · rw [Serde.errorOfText, Serde.errorToText, Serde.parse_text, Option.bind_some]; rfl
  · have hn : ∀ vs : List Value, (∀ v ∈ vs, jsonNesting v ≤ 125) ↔ jsonNestings vs ≤ 125 := by
      intro vs
      induction vs with
      | nil => simp [jsonNestings]
      | cons v vs ih =>
        rw [jsonNestings]
        simp only [List.mem_cons, forall_eq_or_imp, ih]
        omega
    have hb := hn c.args
    rw [Serde.callOfText, Serde.callToText, Serde.parse_text, Option.bind_some, Serde.readCall_call (by decide), Serde.limit]
    by_cases h : ∀ v ∈ c.args, jsonNesting v ≤ 125
    · rw [if_pos h, if_pos (by have := hb.mp h; omega)]
    · rw [if_neg h, if_neg (fun h' => h (hb.mpr (by omega)))]

/-- C71: in a text written by hand the entries of a network may come in any order and repeatedly. -/
theorem C71_network_any_order (l l' : List Entry) (h : ∀ e, e ∈ l ↔ e ∈ l') :
    let written := fun l : List Entry => Serde.text (.obj [(lit "Network", .arr (l.map Serde.entry))])
    Serde.valueOfText (written l) = Serde.valueOfText (written l') ∧
    ∃ n, Serde.valueOfText (written l) = some (.network n) ∧ ∀ e, e ∈ n ↔ e ∈ l := by
  have key : ∀ l : List Entry, Serde.valueOfText (Serde.text (.obj [(lit "Network", .arr (l.map Serde.entry))])) =
      some (.network (BSet.ofList l)) := by
    intro l
    rw [Serde.valueOfText, Serde.parse_text, Option.bind_some, Serde.readValue.eq_def]
    simp only []
    rw [if_neg (by decide), if_neg (by decide), if_pos trivial, Serde.readNetwork_list (by decide)]; rfl
  refine ⟨?_, BSet.ofList l, key l, fun e => BSet.mem_ofList⟩
  show Serde.valueOfText _ = Serde.valueOfText _
  rw [key, key]
  have : BSet.ofList l = BSet.ofList l' := BSet.ext (by intro e; rw [BSet.mem_ofList, BSet.mem_ofList]; exact h e)
  rw [this]

/-- C71: the fields of an entry may come in any order, and unknown fields are skipped, whatever their value and however deep. -/
theorem C71_role_any_field_order (f s r : Element) (members extra : List (Str × Json))
    (h : members.Perm ([(lit "first", Serde.element f), (lit "second", Serde.element s), (lit "role", Serde.element r)] ++ extra))
    (he : ∀ m ∈ extra, m.1 ∉ [lit "first", lit "second", lit "role"]) :
    Serde.entryOfText (Serde.text (.obj [(lit "Role", .obj members)])) = some (.role f s r) := by
  rw [Serde.entryOfText, Serde.parse_text, Option.bind_some]
  exact Serde.readEntry_role (by decide) h he

/-- C71: what is read, exactly: a text is read as a value if and only if it is a text, in the grammar of JSON, of a tree that stands for that
value with at most 127 nested brackets (`Spec/JsonText`; the brackets inside the values of unknown fields do not count); all other texts are
refused.  The same for the other types. -/
theorem C71_reads_exactly (s : Str) :
    (∀ v, Serde.valueOfText s = some v ↔ ∃ j, JsonText.Text s j ∧ JsonText.Val 127 j v) ∧
    (∀ c, Serde.callOfText s = some c ↔ ∃ j, JsonText.Text s j ∧ JsonText.CallJson 127 j c) ∧
    (∀ e, Serde.entryOfText s = some e ↔ ∃ j, JsonText.Text s j ∧ JsonText.Ent 127 j e) ∧
    (∀ e, Serde.elementOfText s = some e ↔ ∃ j, JsonText.Text s j ∧ JsonText.Elem 127 j e) ∧
    (∀ m, Serde.errorOfText s = some m ↔ JsonText.Text s (.str m)) := by
  have key : ∀ {α : Type} (f : Json → Option α) (R : Json → α → Prop), (∀ j a, f j = some a ↔ R j a) → ∀ a,
      (Serde.parse s).bind f = some a ↔ ∃ j, JsonText.Text s j ∧ R j a := by
    intro α f R hR a
    rw [Option.bind_eq_some_iff]
    constructor
    · rintro ⟨j, hj, ha⟩; exact ⟨j, (Serde.parse_iff s j).mp hj, (hR _ _).mp ha⟩
    · rintro ⟨j, h1, h3⟩; exact ⟨j, (Serde.parse_iff s j).mpr h1, (hR _ _).mpr h3⟩
  refine ⟨key _ _ (Serde.readValue_iff 127), key _ _ (Serde.readCall_iff 128), key _ _ (Serde.readEntry_iff 128),
    key _ _ (Serde.readElement_iff 128), fun m => ?_⟩
  rw [Serde.errorOfText, key _ _ Serde.readStr_iff]
  constructor
  · rintro ⟨j, h, rfl⟩; exact h
  · intro h; exact ⟨_, h, rfl⟩

/-- C71: however the text of a value is laid out and its strings are escaped, the value comes back. -/
theorem C71_any_spelling (v : Value) (s : Str) (h : JsonText.Text s (Serde.value v)) (hn : jsonNesting v ≤ 127) :
    Serde.valueOfText s = some v :=
  ((C71_reads_exactly s).1 v).mpr ⟨_, h, (Serde.readValue_iff 127 _ _).mp (by rw [Serde.readValue_value, if_pos (by omega)])⟩

/-- A text has at most one reading. -/
theorem C71_unambiguous (s : Str) (j j' : Json) (h : JsonText.Text s j) (h' : JsonText.Text s j') : j = j' := by
  have h1 := (Serde.parse_iff s j).mpr h
  rw [(Serde.parse_iff s j').mpr h'] at h1
  exact (Option.some.inj h1).symm

/-- C71: any JSON at all is fine as the value of an unknown field: if a text reads as an entry, so does the text with another member of an
unknown name put in front. -/
theorem C71_unknown_field (f s r : Element) (w name t : Str) (k : Str) (j : Json) (hw : JsonText.Ws w) (hk : JsonText.Body k name)
    (hname : name ∉ [lit "first", lit "second", lit "role"]) (ht : JsonText.Text t j) (rest : Str)
    (hrest : JsonText.Members rest [(some (lit "first"), Serde.element f), (some (lit "second"), Serde.element s), (some (lit "role"), Serde.element r)]) :
    Serde.entryOfText (lit "{\"Role\":{" ++ ((w ++ '"' :: k ++ '"' :: [] ++ ':' :: t) ++ ',' :: rest) ++ lit "}}") = some (.role f s r) := by
  refine ((C71_reads_exactly _).2.2.1 _).mpr ⟨.obj [(lit "Role", .obj [(name, j), (lit "first", Serde.element f),
    (lit "second", Serde.element s), (lit "role", Serde.element r)])], ?_, (Serde.readEntry_iff 128 _ _).mp ?_⟩
  · have hm : JsonText.Member (w ++ '"' :: k ++ '"' :: [] ++ ':' :: t) (some name, j) := .mk hw (by exact hk) Serde.ws_nil ht
    have hi := JsonText.Core.object (ms := [(name, j), (lit "first", Serde.element f),
      (lit "second", Serde.element s), (lit "role", Serde.element r)]) (.more hm hrest)
    have ho := JsonText.Core.object (ms := [(lit "Role", Json.obj _)]) (.one (.mk (k := lit "Role") (name := some (lit "Role")) Serde.ws_nil (by
      exact Serde.body_jsonBody (lit "Role")) Serde.ws_nil (Serde.text_core hi)))
    have := Serde.text_core ho
    simpa [lit] using this
  · exact Serde.readEntry_role (by decide) (extra := [(name, j)])
      (by exact List.perm_append_comm (l₁ := [(name, j)])) (by simpa using hname)

/-- Such members exist. -/
example (f s r : Element) : JsonText.Ws (lit " ") ∧ JsonText.Body (lit "note") (lit "note") ∧ lit "note" ∉ [lit "first", lit "second", lit "role"] ∧
    JsonText.Text (lit " -1.5E2") .other ∧
    ∃ rest, JsonText.Members rest [(some (lit "first"), Serde.element f), (some (lit "second"), Serde.element s), (some (lit "role"), Serde.element r)] :=
  ⟨by intro c hc; simp [lit] at hc; simp [hc], Serde.body_jsonBody (lit "note"), by decide, (Serde.parse_iff _ _).mp rfl,
    _, Serde.members_text [(lit "first", Serde.element f), (lit "second", Serde.element s), (lit "role", Serde.element r)] (by simp)⟩

/-- A text with white space, escapes in both cases and a surrogate pair, which is not the one the writer writes. -/
example : JsonText.Text (lit " {\"Element\" :[\"\\u00E9\\/\\uD83d\\uDe00\", null,\t\"n\"]\n}") (Serde.value (.element ⟨lit "é/😀", none, some (lit "n")⟩)) := by
  have h : ∀ s v, (Serde.parse s).map Serde.text = some (Serde.text (Serde.value v)) → JsonText.Text s (Serde.value v) := by
    intro s v h
    obtain ⟨j, hj, e⟩ := Option.map_eq_some_iff.mp h
    exact Serde.text_inj e ▸ (Serde.parse_iff s j).mp hj
  exact h _ _ (by decide +kernel)
/-- A lone surrogate, a raw line break in a string, a number and a missing comma are refused. -/
example : (∀ v, ¬ ∃ j, JsonText.Text (lit "{\"Element\":[\"\\uD83d\",null,null]}") j ∧ JsonText.Val 127 j v) ∧
    Serde.valueOfText (lit "{\"Element\":[\"a\nb\",null,null]}") = none ∧
    Serde.valueOfText (lit "{\"Element\":[1,null,null]}") = none ∧
    Serde.valueOfText (lit "{\"Element\":[\"a\" null,null]}") = none := by
  refine ⟨fun v h => ?_, by decide +kernel, by decide +kernel, by decide +kernel⟩
  rw [← (C71_reads_exactly _).1 v] at h
  revert h
  have : Serde.valueOfText (lit "{\"Element\":[\"\\uD83d\",null,null]}") = none := by decide +kernel
  rw [this]; intro h; cases h

/-- A value with a tagged element, a special character, a network and a nested quote. -/
def jsonSample : Value :=
  .quote [.element ⟨lit "a\"\n", some (lit "ns"), none⟩, .quote [.network (BSet.ofList [.role (.of (lit "x")) (.of (lit "y")) (.of (lit "r"))])]]

example : jsonNesting jsonSample ≤ 127 ∧ Serde.valueOfText (Serde.valueToText jsonSample) = some jsonSample :=
  ⟨by decide +kernel, by decide +kernel⟩
example : Serde.valueToText (.quote [.element ⟨lit "a", some (lit "n"), none⟩, .network ∅]) =
    lit "{\"Quote\":[{\"Element\":[\"a\",\"n\",null]},{\"Network\":[]}]}" := by decide +kernel
example : Serde.entryToText (.role (.of (lit "a")) (.of (lit "b")) (.of (lit "r"))) =
    lit "{\"Role\":{\"first\":[\"a\",null,null],\"second\":[\"b\",null,null],\"role\":[\"r\",null,null]}}" := by decide +kernel
example : [Token.openParen, .string (lit "a"), .element (.of (lit "OpenParen")), .ws (lit "\n")].map Serde.tokenToText =
    [lit "\"OpenParen\"", lit "{\"String\":\"a\"}", lit "{\"Element\":[\"OpenParen\",null,null]}", lit "{\"WS\":\"\\n\"}"] := by decide +kernel
/-- White space is accepted, a missing field, a wrong type or trailing text is not. -/
example : Serde.valueOfText (lit " { \"Element\" : [ \"\\u00e9\\ud83d\\ude00\" , null , null ] } ") = some (.element (.of (lit "é😀"))) ∧
    Serde.valueOfText (lit "{\"Element\":[\"a\",null]}") = none ∧
    Serde.valueOfText (lit "{\"Element\":\"a\"}") = none ∧
    Serde.valueOfText (lit "{\"Network\":[]} x") = none ∧
    Serde.entryOfText (lit "{\"Extends\":{\"element\":[\"a\",null,null]}}") = none := by decide +kernel
/-- There are values too deep to be read back. -/
example : Serde.valueOfText (Serde.valueToText (nestedQuote 62)) = some (nestedQuote 62) ∧
    Serde.valueOfText (Serde.valueToText (nestedQuote 63)) = none := by
  rw [C71_value_round_trip, C71_value_round_trip]
  exact ⟨if_pos (by decide +kernel), if_neg (by decide +kernel)⟩
example : ∃ members extra : List (Str × Json), extra ≠ [] ∧
    members.Perm ([(lit "first", Serde.element (.of (lit "a"))), (lit "second", Serde.element (.of (lit "b"))),
      (lit "role", Serde.element (.of (lit "r")))] ++ extra) ∧
    (∀ m ∈ extra, m.1 ∉ [lit "first", lit "second", lit "role"]) :=
  ⟨_, [(lit "note", .null)], by simp, .refl _, by decide +kernel⟩
/-- Numbers, booleans, half a surrogate pair, names with half a pair and any nesting are skipped in an unknown field, and refused in a known
one; what is not JSON is refused anywhere. -/
example :
    let doc := fun x : Str => lit "{\"Extends\":{\"note\":" ++ x ++ lit ",\"element\":[\"a\",null,null],\"concept\":[\"b\",null,null]}}"
    let deep := List.replicate 200 '[' ++ List.replicate 200 ']'
    (∀ x ∈ [lit "-12.50e+3", lit "0", lit "true", lit "\"\\uD83d\"", lit "{\"\\udc00\":[0]}", deep],
      Serde.entryOfText (doc x) = some (.ext (.of (lit "a")) (.of (lit "b")))) ∧
    (∀ x ∈ [lit "01", lit "1.", lit "-", lit "+1", lit "1e", lit ".5", lit "tru", lit "\"\\uD83\"", lit "[1,]", lit "{1:2}", lit "\"\n\""],
      Serde.entryOfText (doc x) = none) ∧
    Serde.errorOfText (lit "1") = none ∧ Serde.errorOfText (lit "\"\\uD83d\"") = none := by decide +kernel

/-- C72: equal values hash equally, whatever the hasher does; and the hash depends on nothing but the kind of value, so any two
elements, any two networks and any two quotes collide. -/
theorem C72_hash {η : Type u} (feed : Nat → η → η) (h : η) (v w : Value) :
    (v = w → v.hashWith feed h = w.hashWith feed h) ∧
    (∀ e e' : Element, (Value.element e).hashWith feed h = (Value.element e').hashWith feed h) ∧
    (∀ n n' : Network, (Value.network n).hashWith feed h = (Value.network n').hashWith feed h) ∧
    (∀ q q' : List Value, (Value.quote q).hashWith feed h = (Value.quote q').hashWith feed h) :=
  ⟨fun e => by rw [e], fun _ _ => rfl, fun _ _ => rfl, fun _ _ => rfl⟩

/-- C72: the three kinds are told apart (with a hasher that keeps what it is fed). -/
theorem C72_kinds (e : Element) (n : Network) (q : List Value) :
    let hash := fun v : Value => v.hashWith (fun d l => d :: l) ([] : List Nat)
    hash (.element e) ≠ hash (.network n) ∧ hash (.element e) ≠ hash (.quote q) ∧ hash (.network n) ≠ hash (.quote q) := by
  simp [Value.hashWith, Value.discriminant]

example : (Value.element (.of (lit "a"))).hashWith (fun d l => d :: l) ([] : List Nat) = [0] ∧ Value.element (.of (lit "a")) ≠ .element (.of (lit "b")) :=
  ⟨rfl, by decide⟩

end Verif
