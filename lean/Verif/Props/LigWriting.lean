import Verif.Props.LigLexing
import Verif.Props.Printing
/-!
# `lig::write_string` and the `lig` tokenizer: C66
-/
namespace Verif
namespace Props
open Lig Spec Display

/-- A text that begins with a quote can only begin with a string token. -/
theorem fits_quote {k : Lig.Kind} {s : Str} {m : Nat} (h : Lig.Fits k (('"' :: s).take m)) : k = .string := by
  obtain ⟨c, t, e, hc⟩ := Lig.first_of h
  cases m with
  | zero => cases e
  | succ m =>
    rw [List.take_succ_cons] at e
    simp only [List.cons.injEq] at e
    rw [← e.1] at hc
    exact Lig.first_unique hc (k' := .string) rfl

/-- C66: what `write_string` of the crate writes is one string token of the crate, at offset 0 and standing for the string, exactly if the string has
no control character but newline, carriage return and tab; otherwise the tokenizer rejects it. -/
theorem C66_write_string (s : Str) :
    ((∀ c ∈ s, ¬ OtherControl c) → ∃ body, Lig.tokenize (writeString s) = .ok [(.string body, 0)] ∧ Unescapes body s) ∧
    ((∃ c ∈ s, OtherControl c) → Lig.tokenize (writeString s) = .err (lit "Error tokenizing input.")) := by
  have only : ∀ k m, Lig.Fits k ((writeString s).take m) → k = .string ∧ ∃ b, StringBody b ∧ b = s.flatMap wsChar := by
    intro k m hf
    rw [writeString_eq] at hf
    have hk := fits_quote hf
    subst hk
    obtain ⟨m, rfl⟩ : ∃ m', m = m' + 1 := ⟨m - 1, by have := Lig.fits_pos hf; omega⟩
    rw [List.take_succ_cons] at hf
    obtain ⟨b, hb, hbody⟩ := hf
    simp only [List.cons.injEq, true_and] at hb
    have hsplit : b ++ '"' :: (s.flatMap wsChar ++ ['"']).drop m = s.flatMap wsChar ++ '"' :: [] := by
      have := List.take_append_drop m (s.flatMap wsChar ++ ['"'])
      rw [hb] at this
      simpa using this
    exact ⟨rfl, b, hbody, close_unique hbody (unescapes_ws s) hsplit⟩
  constructor
  · intro h
    refine ⟨s.flatMap wsChar, (C66_tokens _ _).mpr ?_, unescapes_ws s⟩
    have hf : Lig.Fits .string ((writeString s).take (writeString s).length) := by
      rw [List.take_length, writeString_eq]
      exact ⟨_, rfl, stringBody_ws.mpr h⟩
    have hb : Lig.Best (writeString s) .string (writeString s).length :=
      ⟨Lig.fits_pos hf, Nat.le_refl _, hf, fun _ m hm _ => hm⟩
    refine Lig.Reads.step (pre := []) hb ?_ ?_
    · rw [List.take_length, writeString_eq]; exact .string _
    · rw [List.drop_length]; exact .stop _ _
  · rintro ⟨c, hc, ho⟩
    refine (C66_error _ _).mpr ⟨rfl, [], writeString s, .stop _ _, by rw [writeString_eq]; simp, ?_⟩
    intro k m _ hf
    obtain ⟨_, b, hb, rfl⟩ := only k m hf
    exact stringBody_ws.mp hb c hc ho

example : Lig.tokenize (writeString (lit "a\"\n{")) = .ok [(.string (lit "a\\\"\\n{"), 0)] ∧
    Lig.tokenize (writeString [Char.ofNat 7]) = .err (lit "Error tokenizing input.") ∧
    (∀ c ∈ lit "a\"\n{", ¬ OtherControl c) ∧ (∃ c ∈ [Char.ofNat 7], OtherControl c) := by
  refine ⟨by decide +kernel, by decide +kernel, ?_, ?_⟩ <;> unfold OtherControl <;> decide

end Props
end Verif
