import Verif.Model.Output
import Verif.Props.Print
import Verif.Props.MainExact
/-!
# C103: what has been printed before a panic
-/

set_option linter.unusedSectionVars false

namespace Verif

open Sample

namespace Printed
variable {Line α β : Type}

theorem quiet_ok_bind (a : α) (f : α → Printed Line β) : (quiet (.ok a) >>= f) = f a := rfl

theorem quiet_error_bind (e : Panic) (f : α → Printed Line β) : (quiet (.error e) >>= f) = quiet (.error e) := rfl

theorem say_bind (l : Line) (f : Unit → Printed Line β) : (say l >>= f) = ⟨l :: (f ()).lines, (f ()).result⟩ := rfl

theorem quiet_lines (r : R α) : (quiet r : Printed Line α).lines = [] := rfl

theorem say_lines (l : Line) : (say l).lines = [l] := rfl

theorem ok_bind {x : Printed Line α} {a : α} (h : x.result = .ok a) (f : α → Printed Line β) :
    (x >>= f) = ⟨x.lines ++ (f a).lines, (f a).result⟩ := by
  show andThen x f = _
  rw [andThen, h]

theorem error_bind {x : Printed Line α} {e : Panic} (h : x.result = .error e) (f : α → Printed Line β) :
    (x >>= f) = ⟨x.lines, .error e⟩ := by
  show andThen x f = _
  rw [andThen, h]

end Printed

open Printed

variable {F : Type} [F64 F]

/-- a question about one of the given names -/
def PrintLine.asksAbout (names : List String) : PrintLine F → Bool
  | .question _ name _ => names.contains name
  | _ => false

theorem takeWhile_prefix_eq {α : Type} {p : α → Bool} {l l' : List α} (h : ∀ x ∈ l, p x = true) : (l ++ l').takeWhile p = l ++ l'.takeWhile p := by
  induction l with
  | nil => rfl
  | cons a l ih => rw [List.cons_append, List.takeWhile_cons_of_pos (h a (by simp)), ih (fun x hx => h x (by simp [hx]))]; rfl

/-- **C103** (trees).  Give names to all features, `names` and `more`, and let `full` be what is printed with them.  With the shorter list `names`
the lines of `full` are printed up to, and not including, the first question about one of the other features, where the program panics; if there
is none everything is printed. -/
theorem C103_print (names more : List String) (hd : ∀ x ∈ more, x ∉ names) (tree : TreeNode F (RegressionLeaf F)) (h : tree.Proper)
    (spacing : String) (full : List (PrintLine F)) (hf : printTreeRegression (names ++ more) tree spacing = .ok full) :
    (printTreeOut names tree spacing).lines = full.takeWhile (fun l => !l.asksAbout more) ∧
    ((printTreeOut names tree spacing).result = .ok () ↔ ∀ l ∈ full, l.asksAbout more = false) ∧
    ((printTreeOut names tree spacing).result ≠ .ok () → (printTreeOut names tree spacing).result = .error .index) := by
  induction h generalizing spacing full with
  | leaf q l =>
    cases hf
    refine ⟨rfl, ⟨fun _ l hl => ?_, fun _ => rfl⟩, fun h => absurd rfl h⟩
    simp only [List.mem_singleton] at hl
    subst hl
    rfl
  | node q a b _ _ iha ihb =>
    simp only [printTreeRegression, R.bind_eq_ok] at hf
    obtain ⟨name, h1, la, h2, lb, h3, h4⟩ := hf
    cases Except.ok.inj h4
    obtain ⟨a1, a2, a3⟩ := iha _ _ h2
    obtain ⟨b1, b2, b3⟩ := ihb _ _ h3
    rw [idx_eq_ok] at h1
    simp only [printTreeOut]
    by_cases hq : q.column < names.length
    · rw [List.getElem?_append_left hq] at h1
      have hn : (PrintLine.question spacing name q.value).asksAbout more = false := by
        simp only [PrintLine.asksAbout, List.contains_eq_mem, decide_eq_false_iff_not]
        exact fun hm => hd _ hm (List.mem_of_getElem? h1)
      rw [idx_eq_ok.mpr h1]
      simp only [quiet_ok_bind, say_bind, List.cons_append, List.nil_append]
      rw [List.takeWhile_cons_of_pos (by simp [hn]), List.takeWhile_cons_of_pos (by simp [PrintLine.asksAbout])]
      rcases hra : (printTreeOut names a (spacing ++ "    ")).result with e | u
      · have he : e = .index := by
          have := a3 (by simp [hra])
          rw [hra] at this
          exact Except.error.inj this
        rw [error_bind hra]
        have hex : ¬ ∀ l ∈ la, l.asksAbout more = false := fun hh => by
          have := a2.mpr hh
          rw [hra] at this
          cases this
        refine ⟨?_, ⟨nofun, fun hh => ?_⟩, fun _ => by rw [he]⟩
        · have hw : ∀ l' : List (PrintLine F), (la ++ l').takeWhile (fun l => !l.asksAbout more) = la.takeWhile (fun l => !l.asksAbout more) := by
            intro l'
            rw [List.takeWhile_append, if_neg]
            intro hlen
            apply hex
            intro l hl
            have := List.takeWhile_eq_self_iff.mp ((List.takeWhile_prefix _).eq_of_length hlen) l hl
            simpa using this
          simp only [List.append_assoc, hw, a1]
        · exact absurd (fun l hl => hh l (by simp [hl])) hex
      · have hall := a2.mp hra
        rw [ok_bind hra]
        simp only
        have hla : la.takeWhile (fun l => !l.asksAbout more) = la := List.takeWhile_eq_self_iff.mpr (fun l hl => by simp [hall l hl])
        refine ⟨?_, ⟨fun h => ?_, fun hh => ?_⟩, b3⟩
        · rw [List.append_assoc, takeWhile_prefix_eq (fun l hl => by simp [hall l hl]), List.cons_append,
            List.takeWhile_cons_of_pos (by simp [PrintLine.asksAbout]), a1, hla, b1]
          rfl
        · have hb := b2.mp h
          intro l hl
          simp only [List.mem_cons, List.mem_append, List.not_mem_nil, or_false] at hl
          rcases hl with rfl | rfl | (hl | rfl) | hl
          · exact hn
          · rfl
          · exact hall l hl
          · rfl
          · exact hb l hl
        · exact b2.mpr (fun l hl => hh l (by simp [hl]))
    · have hm : name ∈ more := by
        rw [List.getElem?_append_right (by omega)] at h1
        exact List.mem_of_getElem? h1
      have hn : (PrintLine.question spacing name q.value).asksAbout more = true := by
        simpa [PrintLine.asksAbout] using hm
      rw [idx_none (by omega)]
      simp only [quiet_error_bind, List.cons_append, List.nil_append]
      refine ⟨?_, ⟨nofun, fun hh => ?_⟩, fun _ => rfl⟩
      · rw [List.takeWhile_cons_of_neg (by simp [hn])]
        rfl
      · have := hh _ (List.mem_cons_self ..)
        rw [hn] at this
        cases this


/-- what `print_tree_regression` prints when it ends normally -/
theorem C103_print_complete (names : List String) (tree : TreeNode F (RegressionLeaf F)) (h : tree.Proper) (spacing : String)
    (lines : List (PrintLine F)) :
    printTreeRegression names tree spacing = .ok lines ↔
      (printTreeOut names tree spacing).lines = lines ∧ (printTreeOut names tree spacing).result = .ok () := by
  constructor
  · intro hp
    have hp' : printTreeRegression (names ++ []) tree spacing = .ok lines := by rwa [List.append_nil]
    obtain ⟨h1, h2, _⟩ := C103_print names [] (by simp) tree h spacing lines hp'
    have hall : ∀ l ∈ lines, l.asksAbout [] = false := by
      intro l _
      cases l <;> rfl
    refine ⟨?_, h2.mpr hall⟩
    rw [h1]
    exact List.takeWhile_eq_self_iff.mpr (fun l hl => by simp [hall l hl])
  · rintro ⟨rfl, hr⟩
    induction h generalizing spacing with
    | leaf q l => rfl
    | node q a b _ _ iha ihb =>
      simp only [printTreeOut] at hr ⊢
      rcases hi : idx names q.column with e | name
      · rw [hi] at hr
        simp only [quiet_error_bind] at hr
        cases hr
      · rw [hi] at hr
        simp only [quiet_ok_bind, say_bind] at hr ⊢
        rcases hra : (printTreeOut names a (spacing ++ "    ")).result with e | u
        · rw [error_bind hra] at hr
          cases hr
        · rw [ok_bind hra] at hr ⊢
          simp only at hr ⊢
          have h1 := iha _ hra
          have h2 := ihb _ hr
          simp only [printTreeRegression, hi, h1, h2, R.ok_bind, R.pure_eq, List.append_assoc, List.cons_append, List.nil_append]

/-! ## the main program -/

variable (parse : String → Option F) (sqrt : F → F) (featuresTrain labelsTrain featuresTest labelsTest : Option CsvRecords) (lr : F)

/-- **C103** (program).  The program panics exactly when `mainProgram` does, with the same message kind, and if it runs to its end it has printed the
six lines: the 11th training label, the elapsed time, the mean squared error, its square root, the first test label, the first prediction.
Otherwise it has printed the first 0, 1, 2 or 4 of them. -/
theorem C103_main_lines :
    (∀ out, mainProgram parse featuresTrain labelsTrain featuresTest labelsTest lr = .ok out →
      mainOut parse sqrt featuresTrain labelsTrain featuresTest labelsTest lr =
        ⟨[.vector out.label10, .elapsed, .number out.mse, .number (sqrt out.mse), .vector out.label0, .vector out.prediction], .ok ()⟩) ∧
    (∀ e, mainProgram parse featuresTrain labelsTrain featuresTest labelsTest lr = .error e →
      (mainOut parse sqrt featuresTrain labelsTrain featuresTest labelsTest lr).result = .error e ∧
      ((mainOut parse sqrt featuresTrain labelsTrain featuresTest labelsTest lr).lines = [] ∨
        ∃ v, (mainOut parse sqrt featuresTrain labelsTrain featuresTest labelsTest lr).lines = [.vector v] ∨
          (mainOut parse sqrt featuresTrain labelsTrain featuresTest labelsTest lr).lines = [.vector v, .elapsed] ∨
          ∃ x, (mainOut parse sqrt featuresTrain labelsTrain featuresTest labelsTest lr).lines =
            [.vector v, .elapsed, .number x, .number (sqrt x)])) := by
  unfold mainProgram mainOut
  rcases readCsvDataMultiTarget parse featuresTrain labelsTrain with e | train
  · refine ⟨nofun, ?_⟩
    rintro e' ⟨⟩
    exact ⟨rfl, .inl rfl⟩
  simp only [R.ok_bind, quiet_ok_bind]
  rcases idx train.labels 10 with e | l10
  · refine ⟨nofun, ?_⟩
    rintro e' ⟨⟩
    exact ⟨rfl, .inl rfl⟩
  simp only [R.ok_bind, quiet_ok_bind, say_bind]
  rcases regressionTrain train { useMultiThreading := true, numberOfClasses := 10, maxLevels := 3 } 300 lr with e | m
  · refine ⟨nofun, ?_⟩
    rintro e' ⟨⟩
    exact ⟨rfl, .inr ⟨_, .inl rfl⟩⟩
  simp only [R.ok_bind, quiet_ok_bind]
  rcases readCsvDataMultiTarget parse featuresTest labelsTest with e | test
  · refine ⟨nofun, ?_⟩
    rintro e' ⟨⟩
    exact ⟨rfl, .inr ⟨_, .inr (.inl rfl)⟩⟩
  simp only [R.ok_bind, quiet_ok_bind]
  rcases regressionScore m test with e | mse
  · refine ⟨nofun, ?_⟩
    rintro e' ⟨⟩
    exact ⟨rfl, .inr ⟨_, .inr (.inl rfl)⟩⟩
  simp only [R.ok_bind, quiet_ok_bind]
  rcases idx test.featureRows 0 with e | row
  · refine ⟨nofun, ?_⟩
    rintro e' ⟨⟩
    exact ⟨rfl, .inr ⟨_, .inr (.inr ⟨_, rfl⟩)⟩⟩
  simp only [R.ok_bind, quiet_ok_bind]
  rcases regressionPredict m row with e | p
  · refine ⟨nofun, ?_⟩
    rintro e' ⟨⟩
    exact ⟨rfl, .inr ⟨_, .inr (.inr ⟨_, rfl⟩)⟩⟩
  simp only [R.ok_bind, quiet_ok_bind]
  rcases idx test.labels 0 with e | l0
  · refine ⟨nofun, ?_⟩
    rintro e' ⟨⟩
    exact ⟨rfl, .inr ⟨_, .inr (.inr ⟨_, rfl⟩)⟩⟩
  refine ⟨?_, nofun⟩
  rintro out ⟨⟩
  rfl


/-- **C103** (program).  How far the program gets, under the conditions of C89 on the columns.  The first line is printed if and only if the training
files can be read and hold a row and at least 11 labels.  The second is printed if and only if moreover there are as many labels as rows, every
label has 10 entries and no feature is NaN.  The third and fourth are printed if and only if moreover the test files can be read and hold a row,
there are no more test labels than test rows and every test label has 10 entries; the last two, if and only if moreover there is a test label. -/
theorem C103_main_progress [LawfulOrder F]
    (hcols : ∀ header records, featuresTrain = some (header :: records) → header.length ≠ 0 ∧ header.length ≤ 2 ^ 32)
    (hwide : ∀ header records header' records', featuresTrain = some (header :: records) → featuresTest = some (header' :: records') →
      header.length ≤ header'.length)
    (lines : List (MainLine F)) (hlines : (mainOut parse sqrt featuresTrain labelsTrain featuresTest labelsTest lr).lines = lines) :
    (1 ≤ lines.length ↔ ∃ rows labels, HoldsRecords parse featuresTrain rows ∧ HoldsRecords parse labelsTrain labels ∧ rows ≠ [] ∧
      11 ≤ labels.length) ∧
    (2 ≤ lines.length ↔ ∃ rows labels, HoldsRecords parse featuresTrain rows ∧ HoldsRecords parse labelsTrain labels ∧
      11 ≤ labels.length ∧ labels.length = rows.length ∧ (∀ l ∈ labels, l.length = 10) ∧ ∀ row ∈ rows, ∀ x ∈ row, isNaN x = false) ∧
    (2 ≤ lines.length → (3 ≤ lines.length ↔ ∃ rows labels, HoldsRecords parse featuresTest rows ∧ HoldsRecords parse labelsTest labels ∧ rows ≠ [] ∧
      labels.length ≤ rows.length ∧ ∀ l ∈ labels, l.length = 10)) ∧
    (3 ≤ lines.length → 4 ≤ lines.length ∧ (5 ≤ lines.length ↔ ∃ labels, HoldsRecords parse labelsTest labels ∧ labels ≠ [])) ∧
    (5 ≤ lines.length → lines.length = 6) := by
  subst hlines
  unfold mainOut
  -- the training files
  rcases h1 : readCsvDataMultiTarget parse featuresTrain labelsTrain with e | train
  · have hno : ¬ ∃ rows labels, HoldsRecords parse featuresTrain rows ∧ HoldsRecords parse labelsTrain labels ∧ rows ≠ [] := by
      rintro ⟨rows, labels, a1, a2, a3⟩
      rw [(C50_multi_target parse _ _ (dataOf rows labels)).mpr ⟨a1, a2, a3, rfl⟩] at h1
      cases h1
    simp only [quiet_error_bind, quiet_lines, List.length_nil]
    refine ⟨⟨by omega, ?_⟩, ⟨by omega, ?_⟩, by omega, by omega, by omega⟩
    · rintro ⟨rows, labels, a1, a2, a3, _⟩
      exact absurd ⟨rows, labels, a1, a2, a3⟩ hno
    · rintro ⟨rows, labels, a1, a2, a3, a4, _⟩
      exact absurd ⟨rows, labels, a1, a2, List.ne_nil_of_length_pos (by omega)⟩ hno
  obtain ⟨a1, a2, a3, a4⟩ := (C50_multi_target parse _ _ _).mp h1
  have hrows : ∀ rows, HoldsRecords parse featuresTrain rows → rows = train.featureRows := fun rows h => C50_content_unique parse _ _ _ h a1
  have hlabels : ∀ labels, HoldsRecords parse labelsTrain labels → labels = train.labels := fun rows h => C50_content_unique parse _ _ _ h a2
  simp only [quiet_ok_bind]
  rcases h2 : idx train.labels 10 with e | l10
  · have hno : ¬ 11 ≤ train.labels.length := by
      intro h
      rw [idx_lt (show 10 < train.labels.length by omega)] at h2
      cases h2
    simp only [quiet_error_bind, quiet_lines, List.length_nil]
    refine ⟨⟨by omega, ?_⟩, ⟨by omega, ?_⟩, by omega, by omega, by omega⟩
    · rintro ⟨rows, labels, b1, b2, _, b3⟩
      rw [hlabels _ b2] at b3
      exact absurd b3 hno
    · rintro ⟨rows, labels, b1, b2, b3, _⟩
      rw [hlabels _ b2] at b3
      exact absurd b3 hno
  have h11 : 11 ≤ train.labels.length := by
    rw [idx_eq_ok] at h2
    have := (List.getElem?_eq_some_iff.mp h2).1
    omega
  simp only [quiet_ok_bind, say_bind]
  -- training
  obtain ⟨header, records, hf, hw⟩ := holds_header a1 a3
  obtain ⟨hc0, hc1⟩ := hcols header records hf
  have hhead : (train.featureRows.headD []).length = header.length := by
    obtain ⟨r, rs, hr⟩ := List.exists_cons_of_ne_nil a3
    rw [hr]
    exact hw r (by rw [hr]; simp)
  have htab : train.Tables header.length (train.labels.headD []).length := ⟨hw, holds_width a2, by rw [a4, hhead], hc1⟩
  have hone : ∃ rows labels, HoldsRecords parse featuresTrain rows ∧ HoldsRecords parse labelsTrain labels ∧ rows ≠ [] ∧ 11 ≤ labels.length :=
    ⟨_, _, a1, a2, a3, h11⟩
  have htwo : (∃ m, regressionTrain train { useMultiThreading := true, numberOfClasses := 10, maxLevels := 3 } 300 lr = .ok m) ↔
      ∃ rows labels, HoldsRecords parse featuresTrain rows ∧ HoldsRecords parse labelsTrain labels ∧
        11 ≤ labels.length ∧ labels.length = rows.length ∧ (∀ l ∈ labels, l.length = 10) ∧ ∀ row ∈ rows, ∀ x ∈ row, isNaN x = false := by
    constructor
    · rintro ⟨m, h3⟩
      have hlen := regressionTrain_lengths htab (by omega) (by decide : 0 < 300) h3
      obtain ⟨_, _, g3, g4⟩ := (C88_regression_ensemble train _ _ htab (by omega) (fun h => by omega) _ 300 (by decide) lr).mp ⟨m, h3⟩
      exact ⟨_, _, a1, a2, h11, hlen, fun l hl => by rw [holds_width a2 l hl]; exact g3.symm, g4⟩
    · rintro ⟨rows, labels, b1, b2, b3, b4, b5, b6⟩
      cases hrows _ b1
      cases hlabels _ b2
      obtain ⟨m, hm, _⟩ := C42_regression train header.length 10 ⟨a3, hw, b4, b5, by rw [a4, hhead], b6, hc1⟩
        { useMultiThreading := true, numberOfClasses := 10, maxLevels := 3 } rfl 300 lr
      exact ⟨m, hm⟩
  rcases h3 : regressionTrain train { useMultiThreading := true, numberOfClasses := 10, maxLevels := 3 } 300 lr with e | m
  · rw [h3] at htwo
    simp only [quiet_error_bind, quiet_lines, List.length_cons, List.length_nil]
    refine ⟨⟨fun _ => hone, by omega⟩, ⟨by omega, fun h => ?_⟩, by omega, by omega, by omega⟩
    obtain ⟨_, h⟩ := htwo.mpr h
    cases h
  have htwo' := htwo.mp ⟨m, h3⟩
  obtain ⟨rows, labels, b1, b2, b3, b4, b5, b6⟩ := id htwo'
  cases hrows _ b1
  cases hlabels _ b2
  obtain ⟨m', hm', hpred⟩ := C42_regression train header.length 10 ⟨a3, hw, b4, b5, by rw [a4, hhead], b6, hc1⟩
    { useMultiThreading := true, numberOfClasses := 10, maxLevels := 3 } rfl 300 lr
  rw [h3] at hm'
  cases hm'
  simp only [quiet_ok_bind]
  -- the test files
  rcases h4 : readCsvDataMultiTarget parse featuresTest labelsTest with e | test
  · simp only [quiet_error_bind, quiet_lines, List.length_cons, List.length_nil]
    refine ⟨⟨fun _ => hone, by omega⟩, ⟨fun _ => htwo', by omega⟩, fun _ => ⟨by omega, ?_⟩, by omega, by omega⟩
    rintro ⟨rows, labels, c1, c2, c3, _⟩
    rw [(C50_multi_target parse _ _ (dataOf rows labels)).mpr ⟨c1, c2, c3, rfl⟩] at h4
    cases h4
  obtain ⟨c1, c2, c3, c4⟩ := (C50_multi_target parse _ _ _).mp h4
  obtain ⟨header', records', hf', hw'⟩ := holds_header c1 c3
  have hle := hwide _ _ _ _ hf hf'
  obtain ⟨preds, hpreds⟩ : ∃ preds, test.featureRows.mapM (regressionPredict m) = .ok preds :=
    mapM_ok_iff.mpr (fun row hrow => by
      obtain ⟨p, hp', _⟩ := hpred row (by rw [hw' row hrow]; exact hle)
      exact ⟨p, hp'⟩)
  have hpl := mapM_length hpreds
  have hpw : ∀ p ∈ preds, p.length = 10 := by
    intro p hpm
    obtain ⟨row, hrow, hpr⟩ := forall₂_mem_right (mapM_eq_ok.mp hpreds) hpm
    obtain ⟨p', hp', hl'⟩ := hpred row (by rw [hw' row hrow]; exact hle)
    rw [hpr] at hp'
    cases hp'
    exact hl'
  have hthree : (∃ mse, regressionScore m test = .ok mse) ↔ ∃ rows labels, HoldsRecords parse featuresTest rows ∧
      HoldsRecords parse labelsTest labels ∧ rows ≠ [] ∧ labels.length ≤ rows.length ∧ ∀ l ∈ labels, l.length = 10 := by
    constructor
    · rintro ⟨mse, h5⟩
      obtain ⟨preds', d1, d2, d3, _⟩ := (C51_ensemble_score m test mse).mp h5
      rw [hpreds] at d1
      cases d1
      refine ⟨_, _, c1, c2, c3, by omega, fun l hl => ?_⟩
      obtain ⟨i, hi⟩ := List.getElem?_of_mem hl
      have hil := (List.getElem?_eq_some_iff.mp hi).1
      have hip : i < preds.length := by omega
      have := d3 (l, preds[i]) (List.mem_iff_getElem?.mpr ⟨i, by
        rw [List.getElem?_zip_eq_some]; exact ⟨hi, List.getElem?_eq_getElem hip⟩⟩)
      simpa [hpw _ (List.getElem_mem hip)] using this
    · rintro ⟨rows, labels, d1, d2, _, d3, d4⟩
      cases C50_content_unique parse _ _ _ d1 c1
      cases C50_content_unique parse _ _ _ d2 c2
      refine ⟨_, (C51_ensemble_score m _ _).mpr ⟨preds, hpreds, by omega, ?_, rfl⟩⟩
      intro e he
      have := List.of_mem_zip he
      rw [d4 _ this.1, hpw _ this.2]
  simp only [quiet_ok_bind]
  rcases h5 : regressionScore m test with e | mse
  · rw [h5] at hthree
    simp only [quiet_error_bind, quiet_lines, List.length_cons, List.length_nil]
    refine ⟨⟨fun _ => hone, by omega⟩, ⟨fun _ => htwo', by omega⟩, fun _ => ⟨by omega, fun h => ?_⟩, by omega, by omega⟩
    obtain ⟨_, h⟩ := hthree.mpr h
    cases h
  have hthree' := hthree.mp ⟨mse, h5⟩
  have hr : 0 < test.featureRows.length := List.length_pos_of_ne_nil c3
  obtain ⟨p, hp, _⟩ := hpred test.featureRows[0] (by rw [hw' _ (List.getElem_mem hr)]; exact hle)
  simp only [quiet_ok_bind, idx_lt hr, hp]
  rcases h6 : idx test.labels 0 with e | l0
  · simp only [quiet_error_bind, quiet_lines, List.length_cons, List.length_nil]
    refine ⟨⟨fun _ => hone, by omega⟩, ⟨fun _ => htwo', by omega⟩, fun _ => ⟨fun _ => hthree', by omega⟩, fun _ => ⟨by omega, by omega, ?_⟩, by omega⟩
    rintro ⟨labels, d1, d2⟩
    cases C50_content_unique parse _ _ _ d1 c2
    rw [idx_lt (List.length_pos_of_ne_nil d2)] at h6
    cases h6
  · simp only [quiet_ok_bind, say_lines, List.length_cons, List.length_nil]
    refine ⟨⟨fun _ => hone, by omega⟩, ⟨fun _ => htwo', by omega⟩, fun _ => ⟨fun _ => hthree', by omega⟩, fun _ => ⟨by omega, fun _ => ?_, fun _ => by omega⟩, fun _ => trivial⟩
    refine ⟨_, c2, ?_⟩
    rintro h
    rw [h] at h6
    cases h6


/-- a file of labels that holds only a header -/
def headerOnly : CsvRecords := [List.replicate 10 "y"]

theorem headerOnly_holds : HoldsRecords digit (some headerOnly) [] := .inr ⟨_, _, rfl, by simp⟩

-- without a test label, four lines are printed before the panic
example (sqrt : E → E) : (mainOut digit sqrt (some elevenRows) (some elevenLabels) (some elevenRows) (some headerOnly) 1).lines.length = 4 := by
  obtain ⟨_, h2, h3, h4, _⟩ := C103_main_progress digit sqrt (some elevenRows) (some elevenLabels) (some elevenRows) (some headerOnly) 1
    (by
      intro header records h
      cases h
      decide)
    (by
      intro header records header' records' h h'
      cases h
      cases h'
      decide) _ rfl
  have e2 := h2.mpr ⟨_, _, elevenRows_holds, elevenLabels_holds, by decide, by decide, by decide, by decide +kernel⟩
  have e3 := (h3 e2).mpr ⟨_, _, elevenRows_holds, headerOnly_holds, by decide, by decide, by decide⟩
  obtain ⟨e4, e5⟩ := h4 e3
  have e6 : ¬ 5 ≤ _ := fun h => by
    obtain ⟨labels, h5, h6⟩ := e5.mp h
    exact h6 (C50_content_unique digit _ _ _ h5 headerOnly_holds)
  omega

/-- a tree that asks about its first feature, and then about the second one -/
def nested : TreeNode E (RegressionLeaf E) :=
  let leaf (x : E) : TreeNode E (RegressionLeaf E) :=
    .mk ⟨0, 0⟩ none none (some ⟨some { featureRows := [[0, 0]], labels := [[x]], featureColumns := [[0], [0]] }⟩)
  .mk ⟨0, 1⟩ (some (leaf 1)) (some (.mk ⟨1, 2⟩ (some (leaf 3)) (some (leaf 5)) none)) none

-- the second feature has no name: the question about the first, its true branch and the marker of its false branch are printed
example : (printTreeOut ["height"] nested "").lines.length = 4 ∧ (printTreeOut ["height"] nested "").result = .error .index := by decide +kernel
example : (printTreeOut ["height", "width"] nested "").lines.length = 9 ∧ (printTreeOut ["height", "width"] nested "").result = .ok () := by
  decide +kernel
example : nested.Proper := .node _ _ _ (.leaf _ _) (.node _ _ _ (.leaf _ _) (.leaf _ _))

end Verif
