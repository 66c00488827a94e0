import Verif.Proofs.PackageMerge
import Verif.Proofs.JsonText
/-!
# C96: preparing the npm package overlays the template on the generated description
-/
namespace Verif
namespace Spec
open Pkg

variable {c : Codec}

theorem readObject_iff {f : Found} {o : Obj} : readObject c f = some o ↔ Holds c f o := by
  cases f <;> simp [readObject, Holds]

theorem script_of_holds {fs : Files} {t p : Obj} (ht : Holds c fs.template t) (hp : Holds c fs.package p) :
    script c fs = (.written, { fs with package := .text (c.print (enumerate (merge t p))) },
      fun g => g = fs ∨ ∃ n, g = { fs with package := .text ((c.print (enumerate (merge t p))).take n) }) := by
  obtain ⟨s, e, _⟩ := id hp
  unfold script
  rw [readObject_iff.mpr ht, readObject_iff.mpr hp, e]

theorem merge_nodup {t p : Obj} (hp : (p.map Prod.fst).Nodup) : ((merge t p).map Prod.fst).Nodup := foldl_nodup _ _ hp

theorem enumerate_nodup {o : Obj} (h : (o.map Prod.fst).Nodup) : ((enumerate o).map Prod.fst).Nodup :=
  ((enumerate_perm o).map Prod.fst).nodup_iff.mpr h

theorem merge_overlaid {t p : Obj} (ht : (t.map Prod.fst).Nodup) (hp : (p.map Prod.fst).Nodup) :
    Overlaid t p (enumerate (merge t p)) := by
  intro k
  rw [lookup_perm (enumerate_perm _) (merge_nodup hp), merge, foldl_overlaid _ p (enumerate_nodup ht) k,
    lookup_perm (enumerate_perm t) ht]

theorem merged_values {t p : Obj} (ht : (t.map Prod.fst).Nodup) (hp : (p.map Prod.fst).Nodup) (x : Str × JVal)
    (hx : x ∈ enumerate (merge t p)) : x ∈ t ∨ x ∈ p := by
  have h := (lookup_some_iff (enumerate_nodup (merge_nodup hp))).mpr hx
  rw [merge_overlaid ht hp x.1] at h
  split at h
  · cases h
  · split at h
    · rename_i v e
      cases h
      exact .inl ((lookup_some_iff ht).mp e)
    · exact .inr ((lookup_some_iff hp).mp h)

theorem holds_merged (hc : Faithful c) {fs : Files} {t p : Obj} (ht : Holds c fs.template t) (hp : Holds c fs.package p) :
    c.parse (c.print (enumerate (merge t p))) = some (enumerate (merge t p)) := by
  obtain ⟨st, _, et⟩ := ht
  obtain ⟨sp, _, ep⟩ := hp
  have nt := hc.proper _ _ et
  have np := hc.proper _ _ ep
  refine hc.lossless _ (enumerate_nodup (merge_nodup np.1)) (enumerate_inOrder _ (merge_nodup np.1)) fun x hx => ?_
  rcases merged_values nt.1 np.1 x hx with h | h
  · exact ⟨st, t, et, List.mem_map_of_mem h⟩
  · exact ⟨sp, p, ep, List.mem_map_of_mem h⟩

/-- **C96.** When both files hold an object, the script succeeds, leaves the template as it is, and the package description becomes the
old one overlaid with the template: every member of the template is there with its value, every other member is as it was. -/
theorem C96_overlaid (hc : Faithful c) (fs : Files) (t p : Obj) (ht : Holds c fs.template t) (hp : Holds c fs.package p) :
    (script c fs).1 = .written ∧ (script c fs).2.1.template = fs.template ∧
    ∃ m, Holds c (script c fs).2.1.package m ∧ Overlaid t p m := by
  rw [script_of_holds ht hp]
  refine ⟨rfl, rfl, _, ⟨_, rfl, holds_merged hc ht hp⟩, ?_⟩
  obtain ⟨_, _, et⟩ := ht
  obtain ⟨_, _, ep⟩ := hp
  exact merge_overlaid (hc.proper _ _ et).1 (hc.proper _ _ ep).1

/-- **C96.** With the template of this repository the eight members it names have its values afterwards, whatever was generated, and every
other member is as generated. -/
theorem C96_this_template (hc : Faithful c) (fs : Files) (p : Obj) (ht : Holds c fs.template Pkg.template) (hp : Holds c fs.package p) :
    ∃ m, Holds c (script c fs).2.1.package m ∧
      m.lookup (lit "name") = some (.str (lit "@ligature/ligature")) ∧
      m.lookup (lit "version") = some (.str (lit "0.2.0")) ∧
      m.lookup (lit "private") = some (.bool true) ∧
      m.lookup (lit "type") = some (.str (lit "module")) ∧
      m.lookup (lit "license") = some (.str (lit "MPL-2.0")) ∧
      m.lookup (lit "homepage") = some (.str (lit "https://github.com/almibe/ligature-rs")) ∧
      m.lookup (lit "repository") =
        some (.obj [(lit "type", .str (lit "git")), (lit "url", .str (lit "https://github.com/almibe/ligature-rs.git"))]) ∧
      m.lookup (lit "collaborators") = some (.arr [.str (lit "Alex Michael Berry <alexmiberry@gmail.com>")]) ∧
      ∀ k, k ∉ [lit "name", lit "version", lit "private", lit "type", lit "license", lit "homepage", lit "repository",
        lit "collaborators"] → m.lookup k = p.lookup k := by
  obtain ⟨_, _, m, hm, ho⟩ := C96_overlaid hc fs _ p ht hp
  refine ⟨m, hm, ?_, ?_, ?_, ?_, ?_, ?_, ?_, ?_, ?_⟩
  iterate 8 (rw [ho _, if_neg (fun h => absurd h.1 (by decide))]; rfl)
  intro k hk
  rw [ho k]
  have hl : Pkg.template.lookup k = none := lookup_none_iff.mpr hk
  rw [hl]
  split
  · rename_i h; exact h.2.symm
  · rfl

/-- **C96.** New members come after the old ones, in the order of the template; the old ones keep their places (unless a name is a
number, which JavaScript moves to the front). -/
theorem C96_order (hc : Faithful c) (fs : Files) (t p m : Obj) (ht : Holds c fs.template t) (hp : Holds c fs.package p)
    (hi : ∀ k ∈ t.map Prod.fst ++ p.map Prod.fst, ∀ n, ¬ IndexName k n) (hm : Holds c (script c fs).2.1.package m) :
    m.map Prod.fst = p.map Prod.fst ++ (t.map Prod.fst).filter fun k => k ∉ p.map Prod.fst ∧ k ≠ lit "__proto__" := by
  have e := holds_merged hc ht hp
  rw [script_of_holds ht hp] at hm
  obtain ⟨s, hs, hm⟩ := hm
  injection hs with hs; subst hs
  rw [e] at hm; cases hm
  have inorder : ∀ o : Obj, (∀ k ∈ o.map Prod.fst, ∀ n, ¬ IndexName k n) → InOrder o := fun o h =>
    ⟨[], o, rfl, fun q hq => h q.1 (List.mem_map_of_mem hq), [], .nil, rfl, fun _ h => nomatch h⟩
  obtain ⟨_, _, et⟩ := ht
  have nt := hc.proper _ _ et
  have hn : (merge t p).map Prod.fst = p.map Prod.fst ++ (t.map Prod.fst).filter fun k => k ∉ p.map Prod.fst ∧ k ≠ lit "__proto__" := by
    unfold merge
    rw [enumerate_of_inOrder nt.2]
    exact foldl_names t p nt.1
  rw [enumerate_of_inOrder (inorder _ ?_), hn]
  intro k hk
  rw [hn] at hk
  refine hi k ?_
  rcases List.mem_append.mp hk with h | h
  · exact List.mem_append_right _ h
  · exact List.mem_append_left _ (List.mem_filter.mp h).1

/-- **C96.** Only then is anything written: without a package description, or when one of the two cannot be read as an object, both files
stay as they are. -/
theorem C96_otherwise_untouched (c : Codec) (fs : Files) :
    ((script c fs).1 = .written ↔ (∃ t, Holds c fs.template t) ∧ ∃ p, Holds c fs.package p) ∧
    ((script c fs).1 = .noPackage ↔ fs.package = .missing) ∧
    ((script c fs).1 ≠ .written → (script c fs).2.1 = fs ∧ ∀ g, (script c fs).2.2 g → g = fs) := by
  cases hp : readObject c fs.package with
  | none =>
    have np : ¬ ∃ p, Holds c fs.package p := fun ⟨p, h⟩ => by rw [readObject_iff.mpr h] at hp; cases hp
    unfold script
    cases hk : fs.package with
    | missing => rw [hk] at np; simp [np]
    | unreadable => rw [hk] at np; cases ht : readObject c fs.template <;> simp [np, readObject]
    | text s =>
      rw [hk] at np hp
      cases ht : readObject c fs.template <;> simp [np, hp]
  | some p =>
    have hp' := readObject_iff.mp hp
    cases ht : readObject c fs.template with
    | none =>
      have nt : ¬ ∃ t, Holds c fs.template t := fun ⟨t, h⟩ => by rw [readObject_iff.mpr h] at ht; cases ht
      obtain ⟨s, e, _⟩ := hp'
      unfold script
      rw [ht, e]
      simp [nt]
    | some t =>
      have ht' := readObject_iff.mp ht
      rw [script_of_holds ht' hp']
      obtain ⟨s, e, _⟩ := id hp'
      simp only [ne_eq, not_true_eq_false, false_implies, and_true, true_iff, reduceCtorEq, false_iff]
      exact ⟨⟨⟨t, ht'⟩, p, hp'⟩, by rw [e]; exact fun h => nomatch h⟩

/-- **C96.** Running the script again writes the same text again. -/
theorem C96_again (hc : Faithful c) (fs : Files) (h : (script c fs).1 = .written) :
    (script c (script c fs).2.1).1 = .written ∧ (script c (script c fs).2.1).2.1 = (script c fs).2.1 := by
  obtain ⟨⟨t, ht⟩, p, hp⟩ := (C96_otherwise_untouched c fs).1.mp h
  have e := holds_merged hc ht hp
  rw [script_of_holds ht hp]
  have hm : Holds c (Files.mk fs.template (.text (c.print (enumerate (merge t p))))).package (enumerate (merge t p)) := ⟨_, rfl, e⟩
  rw [script_of_holds (fs := ⟨fs.template, .text (c.print (enumerate (merge t p)))⟩) ht hm]
  refine ⟨rfl, ?_⟩
  obtain ⟨_, _, et⟩ := ht
  obtain ⟨_, _, ep⟩ := hp
  have nt := hc.proper _ _ et
  have np := hc.proper _ _ ep
  have nm := enumerate_nodup (merge_nodup (t := t) np.1)
  have same : merge t (enumerate (merge t p)) = enumerate (merge t p) := by
    refine foldl_same _ _ nm fun q hq => ?_
    have hq' := (lookup_some_iff nt.1).mpr ((enumerate_perm t).mem_iff.mp hq)
    have := merge_overlaid nt.1 np.1 q.1
    rw [hq'] at this
    split at this
    · rename_i hc'; exact .inr ⟨hc'.1, this⟩
    · exact .inl this
  rw [same, enumerate_of_inOrder (enumerate_inOrder _ (merge_nodup np.1))]

/-- **C96.** The script is not safe against being cut off: the template always survives, but the package description can be left as any
beginning of its new text, the empty text among them; then the script fails until the package is built anew. -/
theorem C96_cut_off (c : Codec) (fs : Files) (h : (script c fs).1 = .written) :
    (∀ g, (script c fs).2.2 g → g.template = fs.template ∧
      (g.package = fs.package ∨ ∃ s m, g.package = .text s ∧ s <+: m ∧ (script c fs).2.1.package = .text m)) ∧
    ∃ g, (script c fs).2.2 g ∧ g.package = .text [] ∧ (c.parse [] = none → (script c g).1 = .failed ∧ (script c g).2.1 = g) := by
  obtain ⟨⟨t, ht⟩, p, hp⟩ := (C96_otherwise_untouched c fs).1.mp h
  rw [script_of_holds ht hp]
  refine ⟨?_, ⟨fs.template, .text []⟩, .inr ⟨0, rfl⟩, rfl, fun he => ?_⟩
  · rintro g (rfl | ⟨n, rfl⟩)
    · exact ⟨rfl, .inl rfl⟩
    · exact ⟨rfl, .inr ⟨_, _, rfl, List.take_prefix _ _, rfl⟩⟩
  · have hr : readObject c (.text []) = none := he
    unfold script
    simp only [readObject_iff.mpr ht, hr]
    exact ⟨trivial, trivial⟩

/-! ## The hypotheses can be met -/

namespace PkgWitness

mutual
/-- Every value as a tree of `Json`, numbers and booleans tagged. -/
def enc : JVal → Json
  | .null => .null
  | .bool b => .arr [.str (lit "b"), .str (if b then lit "1" else lit "0")]
  | .num t => .arr [.str (lit "n"), .str t]
  | .str s => .str s
  | .arr vs => .arr [.arr (encs vs)]
  | .obj ms => .obj (encm ms)
def encs : List JVal → List Json
  | [] => []
  | v :: vs => enc v :: encs vs
def encm : List (Str × JVal) → List (Str × Json)
  | [] => []
  | (k, v) :: ms => (k, enc v) :: encm ms
end

mutual
def dec : Json → Option JVal
  | .null => some .null
  | .str s => some (.str s)
  | .arr [.str a, .str b] => if a = lit "n" then some (.num b) else some (.bool (b == lit "1"))
  | .arr [.arr js] => (decs js).map .arr
  | .arr _ => none
  | .obj ms => (decm ms).map .obj
  | .other => none
def decs : List Json → Option (List JVal)
  | [] => some []
  | j :: js => do return (← dec j) :: (← decs js)
def decm : List (Str × Json) → Option (List (Str × JVal))
  | [] => some []
  | (k, j) :: ms => do return (k, ← dec j) :: (← decm ms)
end

mutual
theorem dec_enc : ∀ v, dec (enc v) = some v
  | .null => rfl
  | .bool b => by cases b <;> rfl
  | .num t => by simp [enc, dec]
  | .str s => rfl
  | .arr vs => by simp [enc, dec, decs_encs vs]
  | .obj ms => by simp [enc, dec, decm_encm ms]
theorem decs_encs : ∀ vs, decs (encs vs) = some vs
  | [] => rfl
  | v :: vs => by simp [encs, decs, dec_enc v, decs_encs vs]
theorem decm_encm : ∀ ms, decm (encm ms) = some ms
  | [] => rfl
  | (k, v) :: ms => by simp [encm, decm, dec_enc v, decm_encm ms]
end

/-- A reader and writer that keep the promises, on top of the JSON texts of C71. -/
def codec : Codec where
  print o := Serde.text (.obj (encm o))
  parse s :=
    match Serde.parse s with
    | some (.obj ms) =>
      match decm ms with
      | some o => if (o.map Prod.fst).Nodup ∧ (enumerate o).map Prod.fst = o.map Prod.fst then some o else none
      | none => none
    | _ => none

theorem inOrder_names {o : Obj} (hn : (o.map Prod.fst).Nodup) (h : (enumerate o).map Prod.fst = o.map Prod.fst) : InOrder o := by
  have : enumerate o = o := by
    refine List.ext_getElem (enumerate_perm o).length_eq fun i h1 h2 => ?_
    have hk : ((enumerate o)[i]).1 = (o[i]).1 := by
      have : ((enumerate o).map Prod.fst)[i]'(by simpa using h1) = (o.map Prod.fst)[i]'(by simpa using h2) := by simp only [h]
      simpa using this
    have ha : ((enumerate o)[i]) ∈ o := (enumerate_perm o).mem_iff.mp (List.getElem_mem h1)
    have hb : o[i] ∈ o := List.getElem_mem h2
    have va := (lookup_some_iff hn (k := (o[i]).1) (v := ((enumerate o)[i]).2)).mpr (by rw [← hk]; exact ha)
    have vb := (lookup_some_iff hn (k := (o[i]).1) (v := (o[i]).2)).mpr hb
    rw [va] at vb
    exact Prod.ext hk (Option.some.inj vb)
  rw [← this]
  exact enumerate_inOrder o hn

theorem faithful : Faithful codec where
  proper s o h := by
    simp only [codec] at h
    split at h
    · split at h
      · split at h
        · rename_i hc
          cases h
          exact ⟨hc.1, inOrder_names hc.1 hc.2⟩
        · cases h
      · cases h
    · cases h
  lossless o hn ho _ := by
    simp only [codec, Serde.parse_text, decm_encm]
    rw [if_pos ⟨hn, by rw [enumerate_of_inOrder ho]⟩]

/-- What `wasm-pack` writes, shortened. -/
def generated : Obj :=
  [(lit "name", .str (lit "ligature-wasm")), (lit "files", .arr [.str (lit "a.wasm")]), (lit "version", .str (lit "0.1.0"))]

def files : Files := ⟨.text (codec.print Pkg.template), .text (codec.print generated)⟩

theorem holds_print (o : Obj) (h : (o.map Prod.fst).Nodup ∧ (enumerate o).map Prod.fst = o.map Prod.fst) :
    Holds codec (.text (codec.print o)) o :=
  ⟨_, rfl, by simp only [codec, Serde.parse_text, decm_encm]; rw [if_pos h]⟩

theorem holds_template : Holds codec files.template Pkg.template := holds_print _ (by decide +kernel)
theorem holds_generated : Holds codec files.package generated := holds_print _ (by decide +kernel)

end PkgWitness

open PkgWitness

/-- The hypotheses of C96 are met by the template of this repository and a generated description: the result has both the template's and
the generated members, in the order said. -/
example : ∃ m, Holds codec (script codec files).2.1.package m ∧
    m.lookup (lit "version") = some (.str (lit "0.2.0")) ∧ m.lookup (lit "files") = some (.arr [.str (lit "a.wasm")]) ∧
    m.map Prod.fst = [lit "name", lit "files", lit "version", lit "private", lit "type", lit "license", lit "homepage", lit "repository",
      lit "collaborators"] := by
  obtain ⟨m, hm, _, hv, _, _, _, _, _, _, hk⟩ := C96_this_template faithful files generated holds_template holds_generated
  refine ⟨m, hm, hv, ?_, ?_⟩
  · rw [hk _ (by decide)]; rfl
  · rw [C96_order faithful files _ generated m holds_template holds_generated ?_ hm]
    · decide +kernel
    · intro k hk n hi
      have := (index_iff k n).mpr hi
      have none : ∀ k ∈ Pkg.template.map Prod.fst ++ generated.map Prod.fst, index k = none := by decide +kernel
      rw [none k hk] at this; cases this

/-- … and running again changes nothing, while being cut off can leave a description the script cannot read. -/
example : (script codec (script codec files).2.1).2.1 = (script codec files).2.1 ∧
    ∃ g, (script codec files).2.2 g ∧ (script codec g).1 = .failed := by
  have he : codec.parse [] = none := by
    have : Serde.parse [] = none := by rfl
    simp only [codec, this]
  have key : ∀ fs, (script codec fs).1 = .written → (script codec (script codec fs).2.1).2.1 = (script codec fs).2.1 ∧
      ∃ g, (script codec fs).2.2 g ∧ (script codec g).1 = .failed := fun fs hw => by
    obtain ⟨g, hg, _, hf⟩ := (C96_cut_off codec fs hw).2
    exact ⟨(C96_again faithful fs hw).2, g, hg, (hf he).1⟩
  exact key _ ((C96_otherwise_untouched codec files).1.mpr ⟨⟨_, holds_template⟩, _, holds_generated⟩)

/-- A template with the name `__proto__` would lose that member (it is an ordinary name in JSON), and numbers come first. -/
example : ((enumerate (merge [(lit "__proto__", .null), (lit "b", .null), (lit "10", .null), (lit "9", .null)] [(lit "a", .null)])).map Prod.fst) =
    [lit "9", lit "10", lit "a", lit "b"] := by decide +kernel

end Spec
end Verif
