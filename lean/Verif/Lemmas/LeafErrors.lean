import Verif.Model.Deserializer
import Verif.Lemmas.Core
/-!
# Exceptions of the readers of texts
-/
namespace Verif

/-- The only exception is `ValueError`. -/
def OnlyVE (r : Res α) : Prop := ∀ e, r = .error e → e = .valueError

theorem OnlyVE.ok {a : α} : OnlyVE (.ok a : Res α) := by intro e h; cases h
theorem OnlyVE.ve : OnlyVE (.error .valueError : Res α) := by intro e h; cases h; rfl
theorem OnlyVE.of {x : Res α} {e : Err} (h : OnlyVE x) (hx : x = .error e) : OnlyVE (.error e : Res β) := by
  intro e' h'; cases h'; exact h e hx
theorem OnlyVE.ite {p : Prop} [Decidable p] {x y : Res α} (hx : OnlyVE x) (hy : OnlyVE y) : OnlyVE (if p then x else y) := by
  split
  · exact hx
  · exact hy
theorem OnlyVE.bind {x : Res α} {f : α → Res β} (hx : OnlyVE x) (hf : ∀ a, OnlyVE (f a)) : OnlyVE (x >>= f) := by
  cases x with
  | error e => intro e' h'; cases h'; exact hx e rfl
  | ok a => exact hf a

theorem twoDig_ve (s : Str) : OnlyVE (twoDig s) := by unfold twoDig; split <;> first | exact .ve | exact .ite .ok .ve
theorem fourDig_ve (s : Str) : OnlyVE (fourDig s) := by unfold fourDig; split <;> first | exact .ve | exact .ite .ok .ve
theorem oneDig_ve (s : Str) : OnlyVE (oneDig s) := by unfold oneDig; split <;> first | exact .ve | exact .ite .ok .ve

theorem dash_ve (sep : Bool) (r : Str) :
    OnlyVE (if sep then (match r with | '-' :: r => .ok r | _ => .error .valueError) else .ok r : Res Str) := by
  split
  · split <;> first | exact .ok | exact .ve
  · exact .ok

theorem isoWeekDate_ve (y w d : Nat) : OnlyVE (isoWeekDate y w d) := by
  unfold isoWeekDate; exact .ite .ve (.ite .ve (.ite .ve .ok))

theorem parseWeek_ve (sep all : Bool) (r : Str) : OnlyVE (parseWeek sep all r) := by
  unfold parseWeek
  split
  · rename_i h; exact (twoDig_ve _).of h
  · split
    · exact .ok
    · split
      · rename_i h; exact (dash_ve _ _).of h
      · split
        · rename_i h; exact (oneDig_ve _).of h
        · exact .ok

theorem parseIsoDate_ve (n : Nat) (s : Str) : OnlyVE (parseIsoDate n s) := by
  unfold parseIsoDate
  split
  · rename_i h; exact (fourDig_ve _).of h
  · rename_i y r _
    dsimp only
    generalize decide (r.head? = some '-') = sep
    generalize (if sep = true then r.tail else r) = r'
    refine .ite ?_ ?_
    · split
      · rename_i h; exact (parseWeek_ve _ _ _).of h
      · exact isoWeekDate_ve _ _ _
    · split
      · rename_i h; exact (twoDig_ve _).of h
      · split
        · rename_i h; exact (dash_ve _ _).of h
        · split
          · rename_i h; exact (twoDig_ve _).of h
          · exact .ok

theorem checkDate_ve (d : PyDate) : OnlyVE (checkDate d) := by
  unfold checkDate; exact .ite .ve (.ite .ve (.ite .ve .ok))

theorem checkTime_ve (t : PyTime) : OnlyVE (checkTime t) := by
  unfold checkTime; exact .ite .ve (.ite .ve (.ite .ve (.ite .ve .ok)))

theorem hmsNext_ve (sep : Bool) (s : Str) : OnlyVE (hmsNext sep s) := by
  unfold hmsNext
  split
  · exact .ok
  · exact .ite .ok .ve
  · exact .ite .ok (.ite .ok (.ite .ve .ok))

theorem parseFrac_ve (h m s : Nat) (r : Str) : OnlyVE (parseFrac h m s r) := by unfold parseFrac; exact .ite .ve .ok

theorem parseHmsf_ve (s : Str) : OnlyVE (parseHmsf s) := by
  unfold parseHmsf
  split
  · rename_i h; exact (twoDig_ve _).of h
  · simp only
    split
    · rename_i h; exact (hmsNext_ve _ _).of h
    · exact .ok
    · exact parseFrac_ve _ _ _ _
    · split
      · rename_i h; exact (twoDig_ve _).of h
      · split
        · rename_i h; exact (hmsNext_ve _ _).of h
        · exact .ok
        · exact parseFrac_ve _ _ _ _
        · split
          · rename_i h; exact (twoDig_ve _).of h
          · split
            · rename_i h; exact (hmsNext_ve _ _).of h
            · exact .ok
            · exact parseFrac_ve _ _ _ _
            · exact parseFrac_ve _ _ _ _

theorem parseTz_ve (s : Str) : OnlyVE (parseTz s) := by
  unfold parseTz
  split
  · exact .ok
  · split
    · exact .ite .ve .ok
    · split
      · rename_i h; exact (parseHmsf_ve _).of h
      · exact .ite .ve (.ite .ok (.ite .ok .ve))

theorem parseIsoTime_ve (s : Str) : OnlyVE (parseIsoTime s) := by
  unfold parseIsoTime
  split
  · rename_i h; exact (parseHmsf_ve _).of h
  · simp only
    split
    · exact .ve
    · split
      · rename_i h; exact (parseTz_ve _).of h
      · exact .ok

theorem dateFromIso_ve (s : Str) : OnlyVE (dateFromIso s) := by
  unfold dateFromIso
  split
  · exact .ve
  · split
    · rename_i h; exact (parseIsoDate_ve _ _).of h
    · exact checkDate_ve _

theorem timeFromIso_ve (s : Str) : OnlyVE (timeFromIso s) := by
  unfold timeFromIso
  split
  · rename_i h; exact (parseIsoTime_ve _).of h
  · exact checkTime_ve _

theorem findSep_ve (s : Str) : OnlyVE (findSep s) := by
  unfold findSep
  refine .ite .ok (.ite (.ite (.ite (.ite .ve (.ite .ok .ok)) .ok) .ok) (.ite ?_ .ok))
  exact .ite .ok (.ite .ok .ok)

theorem dateTimeFromIso_ve (s : Str) : OnlyVE (dateTimeFromIso s) := by
  unfold dateTimeFromIso
  split
  · exact .ve
  · split
    · rename_i h; exact (findSep_ve _).of h
    · split
      · rename_i h; exact (parseIsoDate_ve _ _).of h
      · split
        · rename_i h
          refine OnlyVE.of ?_ h
          exact .ite .ok (parseIsoTime_ve _)
        · split
          · rename_i h; exact (checkDate_ve _).of h
          · split
            · rename_i h; exact (checkTime_ve _).of h
            · exact .ok

theorem dtParse_errors {s : Str} {e : Err} (h : dtParse s = .error e) : e = .valueError ∨ e = .jsonValue := by
  unfold dtParse at h
  split at h
  · rename_i h1; cases h; exact .inl (dateTimeFromIso_ve _ _ h1)
  · split at h <;> cases h
    exact .inr rfl

theorem uuidParse_errors {s : Str} {e : Err} (h : uuidParse s = .error e) : e = .valueError ∨ e = .outOfModel := by
  unfold uuidParse pyIntHex at h
  simp only at h
  repeat' split at h
  all_goals first | (cases h; exact .inl rfl) | (cases h; exact .inr rfl) | cases h

theorem parseOctet_ve (s : Str) : OnlyVE (parseOctet s) := by
  unfold parseOctet; exact .ite .ve (.ite .ve (.ite .ve (.ite .ve (.ite .ve .ok))))

theorem ipv4Parse_ve (s : Str) : OnlyVE (ipv4Parse s) := by
  unfold ipv4Parse
  split
  · exact .bind (parseOctet_ve _) fun _ => .bind (parseOctet_ve _) fun _ => .bind (parseOctet_ve _) fun _ =>
      .bind (parseOctet_ve _) fun _ => .ok
  · exact .ve

theorem parseHextet_ve (s : Str) : OnlyVE (parseHextet s) := by
  unfold parseHextet; exact .ite .ve (.ite .ve (.ite .ve .ok))

theorem foldHextets_ve (n : Nat) (ps : List Str) : OnlyVE (foldHextets n ps) := by
  unfold foldHextets
  induction ps generalizing n with
  | nil => exact .ok
  | cons p ps ih =>
    rw [List.foldlM_cons]
    exact .bind (.bind (parseHextet_ve _) fun _ => .ok) fun _ => ih _

theorem ipv6Parts_ve (ps : List Str) : OnlyVE (ipv6Parts ps) := by
  unfold ipv6Parts
  split
  · exact .ve
  · split
    · exact .ve
    · exact .ite .ve (.ite .ve (.ite .ve (.bind (foldHextets_ve _ _) fun _ => foldHextets_ve _ _)))
    · exact .ite .ve (.ite .ve (.ite .ve (foldHextets_ve _ _)))

theorem v4Suffix_ve (ps : List Str) : OnlyVE (v4Suffix ps) := by
  unfold v4Suffix
  split
  · exact .ite (.bind (ipv4Parse_ve _) fun _ => .ok) .ok
  · exact .ok

theorem ipv6Parse_ve (s : Str) : OnlyVE (ipv6Parse s) := by
  have key : ∀ s, OnlyVE (ipv6Int s) := by
    intro s
    unfold ipv6Int
    exact .ite .ve (.ite .ve (.bind (v4Suffix_ve _) fun _ => ipv6Parts_ve _))
  unfold ipv6Parse
  split
  · exact .ve
  · simp only
    split
    · exact .bind (key _) fun _ => .ok
    · exact .ite .ve (.bind (key _) fun _ => .ok)

end Verif
