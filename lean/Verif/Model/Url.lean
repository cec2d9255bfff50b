import Verif.Model.Span
/-!
# Links to the repository

Models `url_from_span` (core/src/sqlite.rs:181-212), the column `url` of `insert` (core/src/sqlite.rs:162-171) and the determination of
the remote in `init` (core/src/sqlite.rs:137-150).
-/
namespace Necessist.Url

/-- What git2 tells of a repository: its working directory, the URL of the remote `origin`, the commit of `HEAD`. -/
structure Repository where
  workdir : Option (List Text)
  originUrl : Option Text
  head : Option Text

/-- `Remote` (core/src/sqlite.rs:27-31) -/
structure Remote where
  workdir : Option (List Text)
  url : Text
  oid : Text

/-- `remote` (core/src/sqlite.rs:137-150) -/
def remoteOf (repository : Option Repository) : Option Remote :=
  match repository with
  | none => none
  | some r => match r.originUrl, r.head with
    | some url, some oid => some ⟨r.workdir, url, oid⟩
    | _, _ => none

/-- The captures of `SSH_RE` = `^[^@]*@([^:]*):(.*)$` (core/src/sqlite.rs:181-184). As in `SPAN_RE`, the match is unique. -/
def sshCaptures (url : Text) : Option (Text × Text) :=
  match splitFirst '@' url with
  | none => none
  | some (_, r) => match splitFirst ':' r with
    | none => none
    | some (host, path) => if path.contains '\n' then none else some (host, path)

/-- `base_url.strip_suffix(".git").unwrap_or(base_url)` (core/src/sqlite.rs:187) -/
def stripGit (url : Text) : Text :=
  if ".git".toList.isSuffixOf url then url.take (url.length - 4) else url

/-- core/src/sqlite.rs:187-194 -/
def baseUrl (url : Text) : Text :=
  match sshCaptures (stripGit url) with
  | some (host, path) => "https://".toList ++ host ++ "/".toList ++ path
  | none => stripGit url

/-- core/src/sqlite.rs:196-201: the file's path relative to the working directory; `none` is a panic (`unwrap`). -/
def relative (workdir : Option (List Text)) (file : List Text) : Option (List Text) :=
  match workdir with
  | none => none
  | some d => if d.isPrefixOf file then some (file.drop d.length) else none

/-- `url_from_span` (core/src/sqlite.rs:186-212); `root` is the absolute path of the project root. -/
def urlFromSpan (root : List Text) (r : Remote) (s : Span) : Option Text :=
  (relative r.workdir (root ++ s.file.path)).map fun path =>
    baseUrl r.url ++ "/blob/".toList ++ r.oid ++ "/".toList ++ List.intercalate ['/'] path ++ "#L".toList ++ showNat s.start.line ++
      "-L".toList ++ showNat s.stop.line

/-- The column `url` (core/src/sqlite.rs:166-170). -/
def urlColumn (root : List Text) (r : Option Remote) (s : Span) : Option Text :=
  match r with
  | none => some []
  | some r => urlFromSpan root r s

end Necessist.Url
