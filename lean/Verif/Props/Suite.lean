import Verif.Spec.Suite
import Verif.Props.Apps
/-!
# What the test suite runner prints: C84
-/
namespace Verif
namespace Props
open Suite

theorem countLine_eq (ts : List Test) (c : Counts) (h1 : c.total = ts.length) (h2 : c.total - c.failed = (ts.filter passes).length) :
    countLine c = lastLine ts := by
  have d : ∀ n : Nat, showInt n = decimal n := fun n => rfl
  unfold countLine lastLine
  rw [h2, h1, d, d]

theorem runLoop_spec (paint : Colour → Str → Str) (fs : List (Option File)) : ∀ (c : Counts) (out : List Str),
    (∀ ts, Tests fs ts → ∃ c', runLoop paint fs c out = ⟨out ++ testLines paint ts ++ [countLine c'], false⟩ ∧ c'.total = c.total + ts.length ∧
      c'.total - c'.failed = c.total - c.failed + (ts.filter passes).length) ∧
    ((¬ ∃ ts, Tests fs ts) → ∃ pre f post ts a, fs = pre ++ f :: post ∧ Tests pre ts ∧ Stops paint f a ∧
      runLoop paint fs c out = ⟨out ++ testLines paint ts ++ a, true⟩) := by
  induction fs with
  | nil =>
    intro c out
    refine ⟨?_, fun h => absurd ⟨[], .nil⟩ h⟩
    intro ts ht
    cases ht
    exact ⟨c, by simp [runLoop, testLines], by simp, by simp⟩
  | cons f fs ih =>
    intro c out
    rcases f with _ | ⟨name, content⟩
    · exact ⟨fun ts ht => (by cases ht), fun _ => ⟨[], none, fs, [], [], rfl, .nil, .noEntry, by simp [runLoop, testLines]⟩⟩
    rcases name with _ | name
    · exact ⟨fun ts ht => (by cases ht), fun _ => ⟨[], some ⟨none, content⟩, fs, [], [], rfl, .nil, .noName, by simp [runLoop, testLines]⟩⟩
    by_cases ht : isTest name = true
    · have hn : TestName name := isTest_iff.mp ht
      rcases content with _ | script
      · constructor
        · intro ts h
          cases h with
          | other hn' _ => exact absurd hn hn'
        · intro _
          refine ⟨[], some ⟨some name, none⟩, fs, [], _, rfl, .nil, .unreadable hn, ?_⟩
          simp only [runLoop, if_pos ht]
          simp [testLines]
      · have go : ∀ (c1 : Counts) (line : Str), verdict paint ⟨name, script⟩ = some line →
            c1.total = c.total + 1 → c1.total - c1.failed = c.total - c.failed + (if passes ⟨name, script⟩ then 1 else 0) →
            (runGraph script Graph.memNew).1 ≠ .panic →
            runLoop paint (some ⟨some name, some script⟩ :: fs) c out = runLoop paint fs c1 (out ++ [lit "🧪" ++ paint .cyan name] ++ [line]) →
            (∀ ts, Tests (some ⟨some name, some script⟩ :: fs) ts → ∃ c',
              runLoop paint (some ⟨some name, some script⟩ :: fs) c out = ⟨out ++ testLines paint ts ++ [countLine c'], false⟩ ∧
              c'.total = c.total + ts.length ∧ c'.total - c'.failed = c.total - c.failed + (ts.filter passes).length) ∧
            ((¬ ∃ ts, Tests (some ⟨some name, some script⟩ :: fs) ts) → ∃ pre f post ts a,
              some ⟨some name, some script⟩ :: fs = pre ++ f :: post ∧ Tests pre ts ∧ Stops paint f a ∧
              runLoop paint (some ⟨some name, some script⟩ :: fs) c out = ⟨out ++ testLines paint ts ++ a, true⟩) := by
          intro c1 line hv ht1 hf1 hp e
          obtain ⟨i1, i2⟩ := ih c1 (out ++ [lit "🧪" ++ paint .cyan name] ++ [line])
          have tl : ∀ ts, testLines paint (⟨name, script⟩ :: ts) = [lit "🧪" ++ paint .cyan name] ++ [line] ++ testLines paint ts := by
            intro ts; simp [testLines, hv]
          constructor
          · intro ts h
            cases h with
            | other hn' _ => exact absurd hn hn'
            | @test _ ts _ _ _ _ h =>
              obtain ⟨c', j1, j2, j3⟩ := i1 _ h
              refine ⟨c', ?_, ?_, ?_⟩
              · rw [e, j1, tl]; simp
              · rw [j2, ht1]; simp; omega
              · rw [j3, hf1, List.filter_cons]; split <;> simp <;> omega
          · intro h
            obtain ⟨pre, f, post, ts, a, h1, h2, h3, h4⟩ := i2 (fun ⟨ts, h'⟩ => h ⟨_, .test hn hp h'⟩)
            refine ⟨some ⟨some name, some script⟩ :: pre, f, post, _, a, by rw [h1]; rfl, .test hn hp h2, h3, ?_⟩
            rw [e, h4, tl]; simp
        cases hr : (runGraph script Graph.memNew).1 with
        | ok v =>
          refine go ⟨c.total + 1, c.failed⟩ _ ?_ rfl ?_ (by rw [hr]; simp) (by rw [runLoop]; simp only [if_pos ht, hr]; rfl)
          · simp only [verdict, hr]
          · simp [passes, hr, Res.isOk]; omega
        | err m =>
          refine go ⟨c.total + 1, c.failed + 1⟩ _ ?_ rfl ?_ (by rw [hr]; simp) (by rw [runLoop]; simp only [if_pos ht, hr]; rfl)
          · simp only [verdict, hr]
          · simp [passes, hr, Res.isOk]; omega
        | panic =>
          constructor
          · intro ts h
            cases h with
            | other hn' _ => exact absurd hn hn'
            | test _ hp' h => exact absurd hr hp'
          · intro _
            refine ⟨[], some ⟨some name, some script⟩, fs, [], _, rfl, .nil, .panics hn hr, ?_⟩
            rw [runLoop]; simp only [if_pos ht, hr]
            simp [testLines]
    · have hn : ¬ TestName name := fun h => ht (isTest_iff.mpr h)
      have e : runLoop paint (some ⟨some name, content⟩ :: fs) c out = runLoop paint fs c out := by
        rw [runLoop]; simp only [if_neg ht]
      obtain ⟨i1, i2⟩ := ih c out
      constructor
      · intro ts h
        cases h with
        | other _ h => rw [e]; exact i1 _ h
        | test hn' _ _ => exact absurd hn' hn
      · intro h
        obtain ⟨pre, f, post, ts, a, h1, h2, h3, h4⟩ := i2 (fun ⟨ts, h'⟩ => h ⟨_, .other hn h'⟩)
        exact ⟨_ :: pre, f, post, ts, a, by rw [h1]; rfl, .other hn h2, h3, by rw [e, h4]⟩

/-- C84: when nothing listed in the directory stops the runner, it prints the banner, for each test in the order of the directory its name and its
verdict, and as last line how many of the tests passed out of how many there are. -/
theorem C84_report (paint : Colour → Str → Str) (w : World) (v : Str) (files : List (Option File)) (ts : List Test)
    (hv : w.var = some v) (hd : w.dir (v ++ lit "/core") = some files) (ht : Tests files ts) :
    program paint w = ⟨banner (v ++ lit "/core") ++ testLines paint ts ++ [lastLine ts], false⟩ ∧ ∀ t ∈ ts, verdict paint t ≠ none := by
  constructor
  · obtain ⟨c', h1, h2, h3⟩ := (runLoop_spec paint files ⟨0, 0⟩ (banner (v ++ lit "/core"))).1 ts ht
    rw [countLine_eq ts c' (by simpa using h2) (by simpa using h3)] at h1
    simp only [program, hv, hd]
    exact h1
  · clear hd hv
    induction ht with
    | nil => simp
    | other _ _ ih => exact ih
    | test _ hp _ ih =>
      intro t htm
      rcases List.mem_cons.mp htm with rfl | htm
      · intro e
        apply hp
        simp only [verdict] at e
        split at e <;> first | assumption | cases e
      · exact ih t htm

/-- C84: in every other case it panics and prints no count: without the variable after the first line, without the directory after the banner, and
otherwise at the first thing listed that stops it, after the complete lines about the tests before it. -/
theorem C84_stops (paint : Colour → Str → Str) (w : World) :
    (w.var = none → program paint w = ⟨[lit "👟 Running Ligature Test Suite!"], true⟩) ∧
    ∀ v, w.var = some v →
      (w.dir (v ++ lit "/core") = none → program paint w = ⟨banner (v ++ lit "/core"), true⟩) ∧
      ∀ files, w.dir (v ++ lit "/core") = some files → (¬ ∃ ts, Tests files ts) →
        ∃ pre f post ts a, files = pre ++ f :: post ∧ Tests pre ts ∧ Stops paint f a ∧
          program paint w = ⟨banner (v ++ lit "/core") ++ testLines paint ts ++ a, true⟩ := by
  refine ⟨fun h => by simp only [program, h], fun v hv => ⟨fun h => ?_, fun files hd h => ?_⟩⟩
  · simp only [program, hv, h]; rfl
  · obtain ⟨pre, f, post, ts, a, h1, h2, h3, h4⟩ := (runLoop_spec paint files ⟨0, 0⟩ (banner (v ++ lit "/core"))).2 h
    refine ⟨pre, f, post, ts, a, h1, h2, h3, ?_⟩
    simp only [program, hv, hd]
    exact h4

theorem stops_not_tests {paint : Colour → Str → Str} {f : Option File} {a : List Str} (h : Stops paint f a) (pre post : List (Option File)) :
    ¬ ∃ ts, Tests (pre ++ f :: post) ts := by
  rintro ⟨ts, ht⟩
  induction pre generalizing ts with
  | nil =>
    rw [List.nil_append] at ht
    cases h with
    | noEntry => cases ht
    | noName => cases ht
    | unreadable hn =>
      cases ht with
      | other hn' _ => exact hn' hn
    | panics hn hp =>
      cases ht with
      | other hn' _ => exact hn' hn
      | test _ hp' _ => exact hp' hp
  | cons g pre ih =>
    cases ht with
    | other _ ht => exact ih _ ht
    | test _ _ ht => exact ih _ ht

/-- C84: so it panics, once it has a directory, exactly when something listed stops it; what the directory lists after that does not matter. -/
theorem C84_panics_iff (paint : Colour → Str → Str) (w : World) (v : Str) (files : List (Option File))
    (hv : w.var = some v) (hd : w.dir (v ++ lit "/core") = some files) :
    (program paint w).panicked = true ↔ ∃ f ∈ files, ∃ a, Stops paint f a := by
  constructor
  · intro h
    obtain ⟨pre, f, post, ts, a, h1, _, h3, _⟩ := ((C84_stops paint w).2 v hv).2 files hd (fun ⟨ts, ht⟩ => by
      rw [(C84_report paint w v files ts hv hd ht).1] at h; cases h)
    exact ⟨f, by simp [h1], a, h3⟩
  · rintro ⟨f, hf, a, h⟩
    obtain ⟨pre, post, rfl⟩ := List.append_of_mem hf
    obtain ⟨_, _, _, _, _, _, _, _, h4⟩ := ((C84_stops paint w).2 v hv).2 _ hd (stops_not_tests h pre post)
    rw [h4]

/-- C84: the same directory listed in another order gives the same last line. -/
theorem C84_order (paint : Colour → Str → Str) (w w' : World) (v : Str) (files files' : List (Option File)) (hp : files.Perm files')
    (hv : w.var = some v) (hv' : w'.var = some v) (hd : w.dir (v ++ lit "/core") = some files) (hd' : w'.dir (v ++ lit "/core") = some files') :
    (program paint w').panicked = (program paint w).panicked ∧
    ((program paint w).panicked = false → (program paint w').lines.getLast? = (program paint w).lines.getLast?) := by
  have key : ∀ {fs fs' : List (Option File)}, fs.Perm fs' → ∀ ts, Tests fs ts → ∃ ts', Tests fs' ts' ∧ ts.Perm ts' := by
    intro fs fs' hp
    induction hp with
    | nil => intro ts h; exact ⟨ts, h, .refl _⟩
    | cons x _ ih =>
      intro ts h
      cases h with
      | other hn h => obtain ⟨ts', a, b⟩ := ih _ h; exact ⟨ts', .other hn a, b⟩
      | test _ hp h => obtain ⟨ts', a, b⟩ := ih _ h; exact ⟨_, .test ‹_› hp a, b.cons _⟩
    | swap x y l =>
      intro ts h
      cases h with
      | other hn h =>
        cases h with
        | other hn' h => exact ⟨_, .other hn' (.other hn h), .refl _⟩
        | test _ hp' h => exact ⟨_, .test ‹_› hp' (.other hn h), .refl _⟩
      | test _ hp h =>
        cases h with
        | other hn' h => exact ⟨_, .other hn' (.test ‹_› hp h), .refl _⟩
        | test _ hp' h => exact ⟨_, .test ‹_› hp' (.test ‹_› hp h), .swap _ _ _⟩
    | trans _ _ i1 i2 =>
      intro ts h
      obtain ⟨t1, a, b⟩ := i1 _ h
      obtain ⟨t2, c, d⟩ := i2 _ a
      exact ⟨t2, c, b.trans d⟩
  have panics : (program paint w').panicked = (program paint w).panicked := by
    rw [Bool.eq_iff_iff, C84_panics_iff paint w v files hv hd, C84_panics_iff paint w' v files' hv' hd']
    constructor
    · rintro ⟨f, hf, h⟩; exact ⟨f, hp.mem_iff.mpr hf, h⟩
    · rintro ⟨f, hf, h⟩; exact ⟨f, hp.mem_iff.mp hf, h⟩
  refine ⟨panics, fun h => ?_⟩
  obtain ⟨ts, ht⟩ : ∃ ts, Tests files ts := Classical.byContradiction fun hn => by
    obtain ⟨_, _, _, _, _, _, _, _, h4⟩ := ((C84_stops paint w).2 v hv).2 _ hd hn
    rw [h4] at h; cases h
  obtain ⟨ts', ht', hpt⟩ := key hp ts ht
  have e : lastLine ts' = lastLine ts := by
    unfold lastLine
    rw [hpt.length_eq, (hpt.filter passes).length_eq]
  have e1 := congrArg Report.lines (C84_report paint w v files ts hv hd ht).1
  have e2 := congrArg Report.lines (C84_report paint w' v files' ts' hv' hd' ht').1
  rw [e1, e2, List.getLast?_concat, List.getLast?_concat, e]

/-- No colours. -/
def plain : Colour → Str → Str := fun _ s => s

/-- A directory with two tests, one of which fails, and a note; and a world with it. -/
def sampleDir : List (Option File) :=
  [some ⟨some (lit "a.wander"), some (lit "assert-equal {} {}")⟩, some ⟨some (lit "notes.txt"), none⟩, some ⟨some (lit "b.wander"), some (lit "nope")⟩]
def worldOf (files : List (Option File)) : World := ⟨some (lit "/suite"), fun d => if d = lit "/suite/core" then some files else none⟩

example : Tests sampleDir [⟨lit "a.wander", lit "assert-equal {} {}"⟩, ⟨lit "b.wander", lit "nope"⟩] := by
  have hn : ∀ {n}, isTest n = true → TestName n := isTest_iff.mp
  refine .test (hn (by decide +kernel)) (by decide +kernel) (.other ?_ (.test (hn (by decide +kernel)) (by decide +kernel) .nil))
  rw [TestName, ← isTest_iff]; decide +kernel

example : program plain (worldOf sampleDir) =
    ⟨[lit "👟 Running Ligature Test Suite!", lit "📁 Running tests in /suite/core.",
      lit "🧪a.wander", lit " 😀 Success!", lit "🧪b.wander", lit " 😅 Failed Could not find command: nope",
      lit "Completed 1 out of 2 tests."], false⟩ := by decide +kernel

/-- A test that cannot be read comes before one that could: only its name is printed. -/
example : Stops plain (some ⟨some (lit "x.wander"), none⟩) [lit "🧪x.wander"] ∧
    program plain (worldOf (some ⟨some (lit "x.wander"), none⟩ :: sampleDir)) =
      ⟨[lit "👟 Running Ligature Test Suite!", lit "📁 Running tests in /suite/core.", lit "🧪x.wander"], true⟩ ∧
    (program plain (worldOf (sampleDir ++ [some ⟨some (lit "y.wander"), some (lit "read")⟩]))).panicked = true := by
  refine ⟨.unreadable (isTest_iff.mp (by decide +kernel)), by decide +kernel, by decide +kernel⟩

end Props
end Verif
