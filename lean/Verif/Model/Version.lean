/-!
# Version numbers

`PlenumVersion` and `SemVerReleaseVersion` over the parser that the code has for an environment without the package `packaging`,
and the file the version of the node is kept in. Versions by characters. Comparing two versions, which this parser answers with
an exception, and the parser of `packaging` are left out.
-/
namespace Verif.Version

/-- The kinds of the part after the release. common/version.py:149, of `PEP440VersionFallback`. -/
inductive Tag where
  | dev | rc | a | b
deriving DecidableEq, Repr

/-- common/version.py:149, of `PEP440VersionFallback`. -/
def Tag.chars : Tag → List Char
  | .dev => ['d', 'e', 'v']
  | .rc => ['r', 'c']
  | .a => ['a']
  | .b => ['b']

/-- common/version.py:157-166, of `PEP440VersionFallback.__init__`: the groups of the match. -/
structure Ver where
  major : Nat
  minor : Nat
  patch : Nat
  extra : Option (Tag × Nat)
deriving DecidableEq, Repr

/-- A number, `[0-9]+` and `int`. common/version.py:149, 165. -/
def takeNum (s : List Char) : Option (Nat × List Char) :=
  let d := s.takeWhile Char.isDigit
  if d = [] then none else some (Nat.ofDigitChars 10 d 0, s.dropWhile Char.isDigit)

/-- `\.`. common/version.py:149. -/
def takeDot : List Char → Option (List Char)
  | '.' :: r => some r
  | _ => none

/-- `\.?`. common/version.py:149. -/
def optDot : List Char → List Char
  | '.' :: r => r
  | r => r

/-- `(dev|rc|a|b)`. common/version.py:149. -/
def takeTag : List Char → Option (Tag × List Char)
  | 'd' :: 'e' :: 'v' :: r => some (.dev, r)
  | 'r' :: 'c' :: r => some (.rc, r)
  | 'a' :: r => some (.a, r)
  | 'b' :: r => some (.b, r)
  | _ => none

/-- `(?:\.?(dev|rc|a|b)\.?([0-9]+))?` and the end. common/version.py:149. -/
def takeExtra (s : List Char) : Option (Option (Tag × Nat)) :=
  if s = [] then some none
  else
    match takeTag (optDot s) with
    | none => none
    | some (t, r) =>
      match takeNum (optDot r) with
      | some (n, []) => some (some (t, n))
      | _ => none

/-- common/version.py:145-166, `PEP440VersionFallback`, its constructor, as called by 222-240, `PEP440BasedVersion._parse`; none
for `InvalidVersionError`. Spaces around (69-77, of `VersionBase.__init__`) do not match anyway. -/
def parse (s : List Char) : Option Ver :=
  match takeNum s with
  | none => none
  | some (x, r) =>
    match takeDot r with
    | none => none
    | some r =>
      match takeNum r with
      | none => none
      | some (y, r) =>
        match takeDot r with
        | none => none
        | some r =>
          match takeNum r with
          | none => none
          | some (z, r) => (takeExtra r).map (fun e => ⟨x, y, z, e⟩)

/-- common/version.py:203-209, `dev` and `is_devrelease`. -/
def Ver.dev (v : Ver) : Option Nat :=
  match v.extra with
  | some (.dev, n) => some n
  | _ => none

/-- common/version.py:194-201, `pre` and `is_prerelease`. -/
def Ver.pre (v : Ver) : Option (Tag × Nat) :=
  match v.extra with
  | some (.dev, _) => none
  | e => e

/-- common/version.py:168-176, `public`, with 178-180, `base_version`; 246-251, `full`. The dot is put before a number that counts
as true: `'.' if self.dev else ''`. -/
def Ver.full (v : Ver) : List Char :=
  Nat.toDigits 10 v.major ++ '.' :: (Nat.toDigits 10 v.minor ++ '.' :: (Nat.toDigits 10 v.patch ++
    match v.extra with
    | none => []
    | some (t, n) => (if v.dev.getD 0 ≠ 0 then ['.'] else []) ++ (t.chars ++ Nat.toDigits 10 n)))

/-- common/version.py:281-304, `DigitDotVersion.__init__`, with 312-314, `SemVerReleaseVersion`; a number counts as true unless it
is 0, a pair always does. The release always has three parts. -/
def semVer (s : List Char) : Option Ver :=
  match parse s with
  | none => none
  | some v => if v.dev.getD 0 ≠ 0 ∨ v.pre.isSome then none else some v

/-- common/version.py:320-342, `PlenumVersion.__init__`. -/
def plenum (s : List Char) : Option Ver :=
  match parse s with
  | none => none
  | some v =>
    match v.pre with
    | some (t, _) => if t ≠ .rc then none else some v
    | none => some v

/-- What the file has for a part. plenum/__metadata__.py:32-36, `set_version`. -/
inductive Part where
  | num (n : Nat)
  | tag (t : Tag)
  | empty
deriving DecidableEq, Repr

/-- common/version.py:253-269, `parts`, and 344-346, of `PlenumVersion`; plenum/__metadata__.py:35, of `set_version`. -/
def Ver.parts (v : Ver) : List Part :=
  [.num v.major, .num v.minor, .num v.patch] ++
    match v.dev with
    | some n => [.tag .dev, .num n]
    | none =>
      match v.pre with
      | some (t, n) => [.tag t, .num n]
      | none => [.empty, .empty]

/-- `str(i)`. plenum/__metadata__.py:29, of `load_version`. -/
def Part.chars : Part → List Char
  | .num n => Nat.toDigits 10 n
  | .tag t => t.chars
  | .empty => []

/-- `'.'.join`. plenum/__metadata__.py:29, of `load_version`. -/
def joinDot : List (List Char) → List Char
  | [] => []
  | [x] => x
  | x :: y :: r => x ++ '.' :: joinDot (y :: r)

/-- plenum/__metadata__.py:32-36, `set_version`. -/
def setVersion (s : List Char) : Option (List Part) := (plenum s).map Ver.parts

/-- plenum/__metadata__.py:20-29, `load_version`. -/
def loadVersion (file : List Part) : Option Ver :=
  plenum (joinDot ((file.map Part.chars).filter (fun c => c ≠ [])))

end Verif.Version
