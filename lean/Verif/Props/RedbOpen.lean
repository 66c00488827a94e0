import Verif.Spec.RedbOpen
/-!
# C91: opening redb databases
-/
namespace Verif
namespace Props
open Spec Redb

/-- The definitions of the code are the six tables. -/
def sixDefs : List TableDef := [idsTable, datasetsIdTable, idDatasetsTable, identifierIdTable, idIdentifierTable, eavTable]

theorem sixDefs_eq : sixDefs.map (fun t => (t.name, t.key, t.value)) = sixTables := rfl

theorem openTable_some {d d' : Db} {t : TableDef} (h : openTable d t = some d') :
    (∀ name u, d.get? name = some u → d'.get? name = some u) ∧ HasTable d' (t.name, t.key, t.value) ∧
    (∀ name u, d'.get? name = some u → d.get? name = none → u.rows = [] ∧ name = t.name) := by
  unfold openTable at h
  split at h
  · rename_i e
    cases h
    refine ⟨fun name u hu => ?_, ⟨_, BMap.get?_insert_self .., rfl, rfl, rfl⟩, fun name u hu hn => ?_⟩
    · rw [BMap.get?_insert_ne]
      · exact hu
      · rintro rfl; rw [e] at hu; cases hu
    · by_cases hname : name = t.name
      · subst hname
        rw [BMap.get?_insert_self] at hu
        cases hu
        exact ⟨rfl, rfl⟩
      · rw [BMap.get?_insert_ne _ _ hname, hn] at hu; cases hu
  · rename_i v e
    split at h
    · rename_i hv
      cases h
      exact ⟨fun _ _ hu => hu, ⟨v, e, hv.1, hv.2.1, hv.2.2⟩, fun name u hu hn => by rw [hn] at hu; cases hu⟩
    · cases h

theorem openTables_some {fl : Faults} : ∀ (ts : List TableDef) (i : Nat) (d d' : Db), openTables fl i ts d = some d' →
    (∀ name u, d.get? name = some u → d'.get? name = some u) ∧ (∀ t ∈ ts, HasTable d' (t.name, t.key, t.value)) ∧
    (∀ name u, d'.get? name = some u → d.get? name = none → u.rows = [] ∧ ∃ t ∈ ts, t.name = name)
  | [], i, d, d', h => by
    cases h
    exact ⟨fun _ _ h => h, nofun, fun name u hu hn => by rw [hn] at hu; cases hu⟩
  | t :: ts, i, d, d', h => by
    unfold openTables at h
    split at h
    · cases h
    · split at h
      · cases h
      · rename_i d1 e
        obtain ⟨a1, a2, a3⟩ := openTable_some e
        obtain ⟨b1, b2, b3⟩ := openTables_some ts (i + 1) d1 d' h
        refine ⟨fun name u hu => b1 _ _ (a1 _ _ hu), ?_, ?_⟩
        · intro t' ht'
          rcases List.mem_cons.mp ht' with rfl | ht'
          · obtain ⟨u, c1, c2⟩ := a2
            exact ⟨u, b1 _ _ c1, c2⟩
          · exact b2 t' ht'
        · intro name u hu hn
          cases e1 : d1.get? name with
          | none =>
            obtain ⟨c1, t', c2, c3⟩ := b3 name u hu e1
            exact ⟨c1, t', List.mem_cons_of_mem _ c2, c3⟩
          | some v =>
            rw [b1 _ _ e1] at hu
            cases hu
            obtain ⟨c1, c2⟩ := a3 _ _ e1 hn
            exact ⟨c1, t, List.mem_cons_self, c2.symm⟩

theorem completed_of {fl : Faults} {d d' : Db} (h : openTables fl 0 sixDefs d = some d') : Completed d d' := by
  obtain ⟨a, b, c⟩ := openTables_some _ _ _ _ h
  refine ⟨a, ?_, ?_⟩
  · intro t ht
    rw [← sixDefs_eq] at ht
    obtain ⟨u, hu, rfl⟩ := List.mem_map.mp ht
    exact b u hu
  · intro name u h1 h2
    obtain ⟨e, t, ht, hn⟩ := c name u h1 h2
    refine ⟨e, (t.name, t.key, t.value), ?_, hn⟩
    rw [← sixDefs_eq]
    exact List.mem_map.mpr ⟨t, ht, rfl⟩

theorem openFile_tables {f : File} {d : Db} (h : openFile f = some d) : d = tablesAt f ∧ f ≠ .foreign := by
  cases f <;> simp only [openFile, Option.some.injEq, reduceCtorEq] at h
  · exact ⟨h.symm, nofun⟩
  · exact ⟨h.symm, nofun⟩
  · exact ⟨h.symm, nofun⟩

theorem write_same (k : Disk) (p : Path) (f : File) : (k.write p f).file p = f := by simp [Disk.write]
theorem write_other (k : Disk) {p q : Path} (f : File) (h : q ≠ p) : (k.write p f).file q = k.file q := by simp [Disk.write, h]

/-- Everything `create` can do. -/
theorem create_cases (fl : Faults) (p : Path) (k : Disk) :
    (create fl p k = (.err [], k, [k.file p]) ∧ (p ∈ k.held ∨ fl.opening = true ∨ k.file p = .foreign)) ∨
    (p ∉ k.held ∧ fl.opening = false ∧ k.file p ≠ .foreign ∧
      ((create fl p k = (.err [], k.write p (.db (tablesAt (k.file p))), [k.file p, .db (tablesAt (k.file p))]) ∧
          (fl.beginning = true ∨ openTables fl 0 sixDefs (tablesAt (k.file p)) = none ∨ fl.commit = some false)) ∨
        (∃ d', openTables fl 0 sixDefs (tablesAt (k.file p)) = some d' ∧
          ((fl.commit = some true ∧ (create fl p k).1 = .err [] ∧ (create fl p k).2.1.held = k.held) ∨
            (fl.beginning = false ∧ fl.commit = none ∧ (create fl p k).1 = .ok () ∧ (create fl p k).2.1.held = p :: k.held)) ∧
          (create fl p k).2.1.file = (k.write p (.db d')).file ∧
          (create fl p k).2.2 = [k.file p, .db (tablesAt (k.file p)), .db d']))) := by
  unfold create
  by_cases h1 : p ∈ k.held ∨ fl.opening = true
  · left
    rw [if_pos h1]
    exact ⟨rfl, h1.elim .inl (fun h => .inr (.inl h))⟩
  · rw [if_neg h1]
    rw [not_or] at h1
    cases h2 : openFile (k.file p) with
    | none =>
      left
      refine ⟨rfl, .inr (.inr ?_)⟩
      cases e : k.file p <;> rw [e] at h2 <;> simp [openFile] at h2
    | some d =>
      right
      obtain ⟨rfl, hf⟩ := openFile_tables h2
      refine ⟨h1.1, by simpa using h1.2, hf, ?_⟩
      by_cases h3 : fl.beginning = true
      · left; simp only [h3, if_true]; exact ⟨trivial, .inl trivial⟩
      · simp only [h3]
        cases h4 : openTables fl 0 sixDefs (tablesAt (k.file p)) with
        | none =>
          left
          unfold sixDefs at h4
          rw [h4]
          exact ⟨by simp, by simp⟩
        | some d' =>
          unfold sixDefs at h4
          rw [h4]
          cases h5 : fl.commit with
          | none =>
            right
            refine ⟨d', rfl, .inr ⟨by simp, rfl, by simp, by simp⟩, ?_, by simp⟩
            funext q
            by_cases hq : q = p <;> simp [Disk.write, hq]
          | some b =>
            cases b with
            | false => left; exact ⟨by simp, by simp⟩
            | true =>
              right
              refine ⟨d', rfl, .inl ⟨rfl, by simp, by simp [Disk.write]⟩, ?_, by simp⟩
              funext q
              by_cases hq : q = p <;> simp [Disk.write, hq]

/-- C91: opening succeeds only on a database nobody has open, a missing or an empty file.  Then all six tables are there, every table
that was there is as it was, the other tables are new and empty, no other file is touched, and the database is open. -/
theorem C91_open_ok (fl : Faults) (p : Path) (k : Disk) (h : (create fl p k).1 = .ok ()) :
    p ∉ k.held ∧ k.file p ≠ .foreign ∧
    (∃ d', (create fl p k).2.1.file p = .db d' ∧ Completed (tablesAt (k.file p)) d') ∧
    (∀ q, q ≠ p → (create fl p k).2.1.file q = k.file q) ∧ (create fl p k).2.1.held = p :: k.held := by
  rcases create_cases fl p k with ⟨e, _⟩ | ⟨h1, h2, h3, ⟨e, _⟩ | ⟨d', hd, ⟨_, e, _⟩ | ⟨_, _, _, e⟩, ef, _⟩⟩
  · rw [e] at h; cases h
  · rw [e] at h; cases h
  · rw [e] at h; cases h
  · exact ⟨h1, h3, ⟨d', by rw [ef, write_same], completed_of hd⟩, fun q hq => by rw [ef, write_other _ _ hq], e⟩

/-- C91: opening never panics, and if it fails, nothing is opened, no other file is touched, and the tables of the file are what they
were — unless the commit itself failed, when they may also all be there. -/
theorem C91_open_fails (fl : Faults) (p : Path) (k : Disk) (h : (create fl p k).1 ≠ .ok ()) :
    (∃ m, (create fl p k).1 = .err m) ∧ (create fl p k).2.1.held = k.held ∧
    (∀ q, q ≠ p → (create fl p k).2.1.file q = k.file q) ∧
    (tablesAt ((create fl p k).2.1.file p) = tablesAt (k.file p) ∨
      fl.commit ≠ none ∧ Completed (tablesAt (k.file p)) (tablesAt ((create fl p k).2.1.file p))) := by
  rcases create_cases fl p k with ⟨e, _⟩ | ⟨h1, h2, h3, ⟨e, _⟩ | ⟨d', hd, ⟨c, e, eh⟩ | ⟨_, _, e, _⟩, ef, _⟩⟩
  · rw [e]; exact ⟨⟨_, rfl⟩, rfl, fun _ _ => rfl, .inl rfl⟩
  · rw [e]
    exact ⟨⟨_, rfl⟩, rfl, fun q hq => write_other _ _ hq, .inl (by dsimp only; rw [write_same]; rfl)⟩
  · refine ⟨⟨_, e⟩, eh, fun q hq => by rw [ef, write_other _ _ hq], .inr ⟨by rw [c]; nofun, ?_⟩⟩
    rw [ef, write_same]
    exact completed_of hd
  · exact absurd e h

theorem no_faults_open : ∀ (ts : List TableDef) (i : Nat) (d : Db), (ts.map TableDef.name).Nodup →
    ((openTables noFaults i ts d).isSome ↔ ∀ t ∈ ts, (d.get? t.name).isSome → HasTable d (t.name, t.key, t.value))
  | [], i, d, _ => by simp [openTables]
  | t :: ts, i, d, hn => by
    simp only [List.map_cons, List.nodup_cons] at hn
    unfold openTables
    simp only [noFaults, Bool.false_eq_true, if_false]
    cases e : openTable d t with
    | none =>
      simp only [Option.isSome_none, Bool.false_eq_true, false_iff]
      intro h
      have := h t List.mem_cons_self
      unfold openTable at e
      split at e
      · cases e
      · rename_i u eu
        obtain ⟨v, e1, e2, e3, e4⟩ := this (by rw [eu]; rfl)
        rw [eu] at e1; cases e1
        rw [if_pos ⟨e2, e3, e4⟩] at e; cases e
    | some d1 =>
      obtain ⟨a1, a2, a3⟩ := openTable_some e
      have := no_faults_open ts (i + 1) d1 hn.2
      simp only [noFaults] at this
      rw [this]
      have same : ∀ t' ∈ ts, d1.get? t'.name = d.get? t'.name := by
        intro t' ht'
        cases e2 : d.get? t'.name with
        | some u => exact a1 _ _ e2
        | none =>
          cases e3 : d1.get? t'.name with
          | none => rfl
          | some u =>
            have := (a3 _ _ e3 e2).2
            exact absurd (List.mem_map.mpr ⟨t', ht', this⟩) hn.1
      constructor
      · intro h t' ht'
        rcases List.mem_cons.mp ht' with rfl | ht'
        · intro hs
          obtain ⟨u, c1, c2⟩ := a2
          obtain ⟨v, hv⟩ := Option.isSome_iff_exists.mp hs
          have := a1 _ _ hv
          rw [c1] at this; cases this
          exact ⟨u, hv, c2⟩
        · intro hs
          have := h t' ht' (by rw [same t' ht']; exact hs)
          unfold HasTable at this ⊢
          rwa [same t' ht'] at this
      · intro h t' ht' hs
        have := h t' (List.mem_cons_of_mem _ ht') (by rw [← same t' ht']; exact hs)
        unfold HasTable at this ⊢
        rwa [same t' ht']

/-- C91: if nothing goes wrong underneath, opening succeeds exactly if nobody has the database open, the file is a database, empty or
missing, and no table of one of the six names has other types. -/
theorem C91_open_iff (p : Path) (k : Disk) :
    (create noFaults p k).1 = .ok () ↔ p ∉ k.held ∧ k.file p ≠ .foreign ∧ ¬ Clash (tablesAt (k.file p)) := by
  have hc : Clash (tablesAt (k.file p)) ↔ openTables noFaults 0 sixDefs (tablesAt (k.file p)) = none := by
    rw [← Option.not_isSome_iff_eq_none, no_faults_open sixDefs 0 _ (by decide +kernel)]
    unfold Clash
    rw [← sixDefs_eq]
    constructor
    · rintro ⟨t, ht, h1, h2⟩ h
      obtain ⟨u, hu, rfl⟩ := List.mem_map.mp ht
      exact h2 (h u hu h1)
    · intro h
      apply Classical.byContradiction
      intro h'
      refine h fun t ht hs => Classical.byContradiction fun hn => h' ⟨_, List.mem_map.mpr ⟨t, ht, rfl⟩, hs, hn⟩
  rw [hc]
  rcases create_cases noFaults p k with ⟨e, h⟩ | ⟨h1, h2, h3, ⟨e, h⟩ | ⟨d', hd, ⟨c, _⟩ | ⟨_, _, e, _⟩, _⟩⟩
  · rw [e]
    simp only [reduceCtorEq, false_iff, not_and, Classical.not_not]
    rcases h with h | h | h
    · exact fun h' => absurd h h'
    · cases h
    · exact fun _ h' => absurd h h'
  · rw [e]
    simp only [reduceCtorEq, false_iff, not_and, Classical.not_not]
    rcases h with h | h | h
    · cases h
    · exact fun _ _ => h
    · cases h
  · cases c
  · rw [hd]
    exact ⟨fun _ => ⟨h1, h3, nofun⟩, fun _ => e⟩

/-- C91: wherever opening is cut off, the file is as it was, has the tables it had, or has all six tables: never only some of the
missing ones. -/
theorem C91_crash (fl : Faults) (p : Path) (k : Disk) (f : File) (h : f ∈ (create fl p k).2.2) :
    f = k.file p ∨ tablesAt f = tablesAt (k.file p) ∨ Completed (tablesAt (k.file p)) (tablesAt f) := by
  rcases create_cases fl p k with ⟨e, _⟩ | ⟨h1, h2, h3, ⟨e, _⟩ | ⟨d', hd, _, _, el⟩⟩
  · rw [e] at h
    simp only [List.mem_cons, List.not_mem_nil, or_false] at h
    exact .inl h
  · rw [e] at h
    simp only [List.mem_cons, List.not_mem_nil, or_false] at h
    rcases h with rfl | rfl
    · exact .inl rfl
    · exact .inr (.inl rfl)
  · rw [el] at h
    simp only [List.mem_cons, List.not_mem_nil, or_false] at h
    rcases h with rfl | rfl | rfl
    · exact .inl rfl
    · exact .inr (.inl rfl)
    · exact .inr (.inr (completed_of hd))

theorem held_write (k : Disk) (p : Path) (f : File) : (k.write p f).held = k.held := rfl

/-- A database with all six tables is left as it is. -/
theorem openTables_full {fl : Faults} : ∀ (ts : List TableDef) (i : Nat) (d d' : Db),
    (∀ t ∈ ts, HasTable d (t.name, t.key, t.value)) → openTables fl i ts d = some d' → d' = d
  | [], i, d, d', _, h => by cases h; rfl
  | t :: ts, i, d, d', hh, h => by
    unfold openTables at h
    split at h
    · cases h
    · obtain ⟨u, h1, h2, h3, h4⟩ := hh t List.mem_cons_self
      have e : openTable d t = some d := by
        unfold openTable
        dsimp only at h1 h3 h4
        rw [h1]
        exact if_pos ⟨h2, h3, h4⟩
      rw [e] at h
      exact openTables_full ts (i + 1) d d' (fun t ht => hh t (List.mem_cons_of_mem _ ht)) h

/-- C91: a database that was opened once can be opened again after it is closed, and opening it again changes no file. -/
theorem C91_reopen (fl : Faults) (p : Path) (k : Disk) (h : (create fl p k).1 = .ok ()) :
    (create noFaults p (drop p (create fl p k).2.1)).1 = .ok () ∧
    (create noFaults p (drop p (create fl p k).2.1)).2.1.file = (create fl p k).2.1.file := by
  obtain ⟨_, _, ⟨d', hd, hc⟩, _, hh⟩ := C91_open_ok fl p k h
  have hf : (drop p (create fl p k).2.1).file p = .db d' := hd
  have ok : (create noFaults p (drop p (create fl p k).2.1)).1 = .ok () := by
    rw [C91_open_iff, hf]
    refine ⟨by simp [drop], nofun, ?_⟩
    rintro ⟨t, ht, _, hn⟩
    exact hn (hc.2.1 t ht)
  refine ⟨ok, ?_⟩
  rcases create_cases noFaults p (drop p (create fl p k).2.1) with ⟨e, _⟩ | ⟨_, _, _, ⟨e, _⟩ | ⟨d2, h2, _, ef, _⟩⟩
  · rw [e] at ok; cases ok
  · rw [e] at ok; cases ok
  · rw [hf] at h2
    have : d2 = d' := by
      refine openTables_full _ _ _ _ (fun t ht => ?_) h2
      apply hc.2.1
      rw [← sixDefs_eq]
      exact List.mem_map.mpr ⟨t, ht, rfl⟩
    subst this
    rw [ef]
    funext q
    by_cases hq : q = p
    · subst hq; rw [write_same, hd]
    · rw [write_other _ _ hq]; rfl

/-- C91: a database is open at most once: while it is open, opening it again fails and changes nothing. -/
theorem C91_exclusive (fl fl' : Faults) (p : Path) (k : Disk) (h : (create fl p k).1 = .ok ()) :
    create fl' p (create fl p k).2.1 = (.err [], (create fl p k).2.1, [(create fl p k).2.1.file p]) := by
  obtain ⟨_, _, _, _, hh⟩ := C91_open_ok fl p k h
  rw [create, if_pos (.inl (by rw [hh]; exact List.mem_cons_self))]

/-- C91: the default instance opens `~/.ligature/redb/ligature.redb`, as `create` does, and panics in every case where that fails, where
there is no home directory or the directory cannot be made. -/
theorem C91_default (fl : Faults) (home : Option Path) (k : Disk) :
    ((openDefault fl home k).1 = .ok () ↔ ∃ h, home = some h ∧ fl.dirs = false ∧ (create fl (defaultFile h) k).1 = .ok ()) ∧
    ((openDefault fl home k).1 = .ok () ∨ (openDefault fl home k).1 = .panic) ∧
    ((openDefault fl home k).2 = k ∨ ∃ h, home = some h ∧ (openDefault fl home k).2 = (create fl (defaultFile h) k).2.1) := by
  unfold openDefault
  cases home with
  | none => simp
  | some h =>
    cases hd : fl.dirs with
    | true => simp
    | false =>
      simp only [Bool.false_eq_true, if_false, Option.some.injEq, exists_eq_left', defaultFile]
      rcases create fl (h ++ [lit ".ligature", lit "redb", lit "ligature.redb"]) k with ⟨_ | _ | _, k', l⟩ <;> simp

/-- C91: a temporary instance is made likewise, in `~/.ligature/redb/ligature-<suffix>.redb`: although its type promises an error,
failure is always a panic. -/
theorem C91_temp (fl : Faults) (home : Option Path) (suffix : Str) (k : Disk) :
    ((openTemp fl home suffix k).1 = .ok () ↔
      ∃ h, home = some h ∧ fl.dirs = false ∧ (create fl (tempFile h suffix) k).1 = .ok ()) ∧
    ((openTemp fl home suffix k).1 = .ok () ∨ (openTemp fl home suffix k).1 = .panic) ∧
    ((openTemp fl home suffix k).2 = k ∨ ∃ h, home = some h ∧ (openTemp fl home suffix k).2 = (create fl (tempFile h suffix) k).2.1) := by
  unfold openTemp
  cases home with
  | none => simp
  | some h =>
    cases hd : fl.dirs with
    | true => simp
    | false =>
      simp only [Bool.false_eq_true, if_false, Option.some.injEq, exists_eq_left', tempFile]
      generalize h ++ [lit ".ligature", lit "redb", lit "ligature-" ++ suffix ++ lit ".redb"] = p
      rcases create fl p k with ⟨_ | _ | _, k', l⟩ <;> simp

/-- C91: temporary databases with different suffixes are different files, and never the default database. -/
theorem C91_temp_apart (home : Path) (s t : Str) :
    (tempFile home s = tempFile home t ↔ s = t) ∧ tempFile home s ≠ defaultFile home := by
  refine ⟨⟨fun h => ?_, fun h => h ▸ rfl⟩, fun h => ?_⟩
  · have := List.append_cancel_left h
    simp only [List.cons.injEq, and_true, true_and] at this
    rw [List.append_assoc, List.append_assoc] at this
    exact List.append_cancel_right (List.append_cancel_left this)
  · have := List.append_cancel_left h
    simp only [List.cons.injEq, and_true, true_and] at this
    have e1 : lit "ligature-" = lit "ligature" ++ ['-'] := rfl
    have e2 : lit "ligature.redb" = lit "ligature" ++ lit ".redb" := rfl
    rw [e1, e2, List.append_assoc, List.append_assoc] at this
    have := List.append_cancel_left this
    have e3 : lit ".redb" = '.' :: lit "redb" := rfl
    rw [e3] at this
    simp at this

/-- What may happen to one file. -/
theorem create_file (fl : Faults) (p : Path) (k : Disk) (q : Path) (f : File)
    (h : f = (create fl p k).2.1.file q ∨ q = p ∧ f ∈ (create fl p k).2.2) :
    f = k.file q ∨ (k.file q ≠ .foreign ∧ f ≠ .foreign ∧
      (tablesAt f = tablesAt (k.file q) ∨ Completed (tablesAt (k.file q)) (tablesAt f))) := by
  rcases create_cases fl p k with ⟨e, _⟩ | ⟨h1, h2, h3, ⟨e, _⟩ | ⟨d', hd, _, ef, el⟩⟩
  · rw [e] at h
    rcases h with h | ⟨rfl, h⟩
    · exact .inl h
    · exact .inl (by simpa using h)
  · rw [e] at h
    by_cases hq : q = p
    · subst hq
      rcases h with h | ⟨_, h⟩
      · dsimp only at h
        rw [write_same] at h
        subst h
        exact .inr ⟨h3, nofun, .inl rfl⟩
      · simp only [List.mem_cons, List.not_mem_nil, or_false] at h
        rcases h with h | h
        · exact .inl h
        · subst h
          exact .inr ⟨h3, nofun, .inl rfl⟩
    · rcases h with h | ⟨h, _⟩
      · dsimp only at h
        rw [write_other _ _ hq] at h
        exact .inl h
      · exact absurd h hq
  · by_cases hq : q = p
    · subst hq
      have hc := completed_of hd
      rcases h with h | ⟨_, h⟩
      · rw [ef, write_same] at h
        subst h
        exact .inr ⟨h3, nofun, .inr hc⟩
      · rw [el] at h
        simp only [List.mem_cons, List.not_mem_nil, or_false] at h
        rcases h with h | h | h
        · exact .inl h
        · subst h
          exact .inr ⟨h3, nofun, .inl rfl⟩
        · subst h
          exact .inr ⟨h3, nofun, .inr hc⟩
    · rcases h with h | ⟨h, _⟩
      · rw [ef, write_other _ _ hq] at h
        exact .inl h
      · exact absurd h hq

theorem kept_refl (f : File) : Kept f f :=
  ⟨.rfl, fun _ _ h => h, fun _ _ h h' => (by rw [h] at h'; cases h'), fun t _ s _ h1 _ h3 => by
    cases e : (tablesAt f).get? t.1 <;> simp [e] at h1 h3⟩

theorem hasTable_isSome {d : Db} {t : Str × Ty × Ty} (h : HasTable d t) : (d.get? t.1).isSome := by
  obtain ⟨u, hu, _⟩ := h; rw [hu]; rfl

theorem kept_step {f g g' : File} (h : Kept f g)
    (hs : g' = g ∨ (g ≠ .foreign ∧ g' ≠ .foreign ∧ (tablesAt g' = tablesAt g ∨ Completed (tablesAt g) (tablesAt g')))) :
    Kept f g' := by
  rcases hs with rfl | ⟨n, n', hs⟩
  · exact h
  · obtain ⟨h0, h1, h2, h3⟩ := h
    have h0' : f = .foreign ↔ g' = .foreign :=
      ⟨fun h => absurd (h0.mp h) n, fun h => absurd h n'⟩
    rcases hs with e | ⟨c1, c2, c3⟩
    · refine ⟨h0', ?_⟩
      rw [e]
      exact ⟨h1, h2, h3⟩
    · refine ⟨h0', fun name u hu => c1 _ _ (h1 _ _ hu), fun name u hu hn => ?_, fun t ht s hs _ _ _ => hasTable_isSome (c2 s hs)⟩
      cases e : (tablesAt g).get? name with
      | none => exact c3 _ _ hu e
      | some v =>
        have := c1 _ _ e
        rw [this] at hu; cases hu
        exact h2 _ _ e hn

theorem run_file (a : RedbAct) (k : Disk) (q : Path) :
    (a.run k).file q = k.file q ∨ (k.file q ≠ .foreign ∧ (a.run k).file q ≠ .foreign ∧
      (tablesAt ((a.run k).file q) = tablesAt (k.file q) ∨ Completed (tablesAt (k.file q)) (tablesAt ((a.run k).file q)))) := by
  cases a with
  | create fl p => exact create_file fl p k q _ (.inl rfl)
  | default fl home =>
    rcases (C91_default fl home k).2.2 with e | ⟨h, _, e⟩
    · exact .inl (by simp only [RedbAct.run, e])
    · simp only [RedbAct.run, e]
      exact create_file fl _ k q _ (.inl rfl)
  | temp fl home suffix =>
    rcases (C91_temp fl home suffix k).2.2 with e | ⟨h, _, e⟩
    · exact .inl (by simp only [RedbAct.run, e])
    · simp only [RedbAct.run, e]
      exact create_file fl _ k q _ (.inl rfl)
  | drop p => exact .inl rfl
  | crash fl p i =>
    simp only [RedbAct.run]
    split
    · exact .inl rfl
    · rename_i f hf
      by_cases hq : q = p
      · subst hq
        have : (Disk.mk (k.write q f).file []).file q = f := write_same k q f
        rw [show ({ k.write q f with held := [] } : Disk).file q = f from this]
        exact create_file fl q k q f (.inr ⟨rfl, List.mem_of_getElem? hf⟩)
      · exact .inl (write_other k f hq)

theorem create_held (fl : Faults) (p : Path) (k : Disk) (h : k.held.Nodup) : (create fl p k).2.1.held.Nodup := by
  rcases create_cases fl p k with ⟨e, _⟩ | ⟨h1, h2, h3, ⟨e, _⟩ | ⟨d', hd, ⟨_, _, e⟩ | ⟨_, _, _, e⟩, _⟩⟩
  · rw [e]; exact h
  · rw [e]; exact h
  · rw [e]; exact h
  · rw [e]; exact List.nodup_cons.mpr ⟨h1, h⟩

theorem run_held (a : RedbAct) (k : Disk) (h : k.held.Nodup) : (a.run k).held.Nodup := by
  cases a with
  | create fl p => exact create_held fl p k h
  | default fl home =>
    rcases (C91_default fl home k).2.2 with e | ⟨h', _, e⟩
    · simp only [RedbAct.run, e]; exact h
    · simp only [RedbAct.run, e]; exact create_held fl _ k h
  | temp fl home suffix =>
    rcases (C91_temp fl home suffix k).2.2 with e | ⟨h', _, e⟩
    · simp only [RedbAct.run, e]; exact h
    · simp only [RedbAct.run, e]; exact create_held fl _ k h
  | drop p => exact h.filter _
  | crash fl p i =>
    simp only [RedbAct.run]
    split <;> exact List.nodup_nil

/-- C91: whatever is opened, closed, fails or is cut off, in any order, no file loses or changes a table; the tables it gains are among
the six and empty, and come all together; files that are not databases stay that way; and no database is open twice. -/
theorem C91_history (as : List RedbAct) (k : Disk) (h : k.held.Nodup) :
    (∀ q, Kept (k.file q) ((as.foldl (fun k a => a.run k) k).file q)) ∧ (as.foldl (fun k a => a.run k) k).held.Nodup := by
  suffices ∀ (as : List RedbAct) (k0 : Disk) (k : Disk), (∀ q, Kept (k0.file q) (k.file q)) → k.held.Nodup →
      (∀ q, Kept (k0.file q) ((as.foldl (fun k a => a.run k) k).file q)) ∧ (as.foldl (fun k a => a.run k) k).held.Nodup from
    this as k k (fun q => kept_refl _) h
  intro as
  induction as with
  | nil => exact fun _ _ h1 h2 => ⟨h1, h2⟩
  | cons a as ih => exact fun k0 k h1 h2 => ih k0 _ (fun q => kept_step (h1 q) (run_file a k q)) (run_held a k h2)

/-- A file at one path, nothing elsewhere. -/
def diskWith (p : Path) (f : File) : Disk := ⟨fun q => if q = p then f else .missing, []⟩
/-- A database with a table of rows of its own, and one of the six. -/
def someDb : Db := (∅ : Db).insert (lit "mine") ⟨.str, .str, false, [([1], [2])]⟩ |>.insert (lit "IDS") ⟨.str, .u64, false, [([65], [0, 0])]⟩

example : (create noFaults [lit "a"] (diskWith [lit "a"] (.db someDb))).1 = .ok () := by decide +kernel
example : (create noFaults [lit "b"] (diskWith [lit "a"] (.db someDb))).1 = .ok () := by decide +kernel
example : (create noFaults [lit "a"] (diskWith [lit "a"] .foreign)).1 = .err [] := by decide +kernel
example : ((tablesAt ((create noFaults [lit "a"] (diskWith [lit "a"] (.db someDb))).2.1.file [lit "a"])).toList).map Prod.fst =
    [lit "DATASETS_ID", lit "EAV", lit "IDENTIFIER_ID", lit "IDS", lit "ID_DATASETS", lit "ID_IDENTIFIER", lit "mine"] := by
  decide +kernel
-- a database whose ID_IDENTIFIER table maps numbers to texts, as its name says, cannot be opened
example : (create noFaults [lit "a"] (diskWith [lit "a"] (.db ((∅ : Db).insert (lit "ID_IDENTIFIER") ⟨.u64, .str, false, []⟩)))).1 =
    .err [] := by decide +kernel
example : Clash ((∅ : Db).insert (lit "ID_IDENTIFIER") ⟨.u64, .str, false, []⟩) :=
  ⟨(lit "ID_IDENTIFIER", .str, .u64), by simp [sixTables], rfl, by rintro ⟨u, h, _, h2, _⟩; cases h; cases h2⟩
example : (openDefault noFaults (some [lit "home"]) (diskWith [lit "a"] .foreign)).1 = .ok () := by decide +kernel
example : (openTemp noFaults (some [lit "home"]) (lit "x1") (diskWith [lit "a"] .foreign)).1 = .ok () := by decide +kernel
example : (openTemp { noFaults with beginning := true } (some [lit "home"]) (lit "x1") (diskWith [lit "a"] .foreign)).1 = .panic := by
  decide +kernel
example : (create { noFaults with commit := some true } [lit "a"] (diskWith [lit "a"] .empty)).2.2.length = 3 := by decide +kernel

end Props
end Verif
