import Verif.Basics

/-!
# `citations` (internal/citations.py) and the file it reads (internal/reference.bib)

Texts are lists of characters.  The regular expressions are written out as matchers; each is deterministic, because the
character that ends a repetition is not one the repetition accepts.  Simplified: `\w` is letters, digits and underscore
of ASCII; keys are matched literally (no key of the file or of a docstring has a character that means something in a
regular expression); a key does not begin with white space.
-/

namespace Verif.Citations

abbrev Text := List Char

def isWord (c : Char) : Bool := c.isAlphanum || c == '_'

def isSpace (c : Char) : Bool := c == ' ' || c == '\n' || c == '\t' || c == '\r'

/-- `re.findall`: `here` matches at the beginning of a text and tells the group and how many characters *after the
first* were read; the search goes on behind the match -/
def findAll (here : Text → Option (Text × ℕ)) : ℕ → Text → List Text
  | _, [] => []
  | k + 1, _ :: r => findAll here k r
  | 0, c :: r =>
    match here (c :: r) with
    | some (key, n) => key :: findAll here n r
    | none => findAll here 0 r

/-- citations.py:29: `@.*?\{(.*?),`, where `.` is anything but a newline -/
def keyHere : Text → Option (Text × ℕ)
  | '@' :: r =>
    let line := r.takeWhile (· ≠ '\n')
    match line.dropWhile (· ≠ '{') with
    | '{' :: q =>
      match q.dropWhile (· ≠ ',') with
      | ',' :: t => some (q.takeWhile (· ≠ ','), line.length - t.length)
      | _ => none
    | _ => none
  | _ => none

/-- what follows `p` in `s`, if `s` begins with `p` -/
def after (p s : Text) : Option Text := if p.isPrefixOf s then some (s.drop p.length) else none

/-- citations.py:36: ``:(?:cite|footcite):[tp]:`(.*?)` `` -/
def citeHere (s : Text) : Option (Text × ℕ) :=
  match (after ":cite:".toList s).orElse (fun _ => after ":footcite:".toList s) with
  | some (c :: ':' :: '`' :: q) =>
    if c = 't' ∨ c = 'p' then
      let k := q.takeWhile (· ≠ '`')
      match q.dropWhile (· ≠ '`') with
      | '`' :: t => if '\n' ∈ k then none else some (k, s.length - t.length - 1)
      | _ => none
    else none
  | _ => none

/-- `.*?\n\}` with DOTALL: what follows the first newline that a closing brace follows -/
def closing : Text → Option Text
  | '\n' :: '}' :: r => some r
  | _ :: r => closing r
  | [] => none

/-- citations.py:53: `@\w+\{\s*key\s*,.*?\n\}` at the beginning of a text; what is left behind the match -/
def entryHere (key : Text) : Text → Option Text
  | '@' :: r =>
    if r.takeWhile isWord = [] then none
    else match r.dropWhile isWord with
      | '{' :: q => do
        let t ← after key (q.dropWhile isSpace)
        match t.dropWhile isSpace with
        | ',' :: b => closing b
        | _ => none
      | _ => none
  | _ => none

/-- `re.search(...)`, `match.group(1)` -/
def search (key : Text) : Text → Option Text
  | [] => none
  | c :: r =>
    match entryHere key (c :: r) with
    | some rest => some ((c :: r).take ((c :: r).length - rest.length))
    | none => search key r

/-- citations.py:53-54; `None.group` is an AttributeError -/
def oneEntry (content key : Text) : Except Err Text :=
  match search key content with
  | some e => .ok e
  | none => .error .attributeError

/-- citations.py:49-55 -/
def citationBibtex (content : Text) (keys : List Text) : Except Err Text := do
  let refs ← keys.mapM (oneEntry content)
  return ['\n'].intercalate refs

/-- the argument `methods`: the string "all", None, something that can be iterated over (with the docstrings of what
is in it), or something that cannot -/
inductive Methods
  | all
  | default
  | objects (docs : List (Option Text))
  | single

/-- a string is iterated over character by character; every character is a `str` and has the docstring of `str` -/
def Methods.ofString (strDoc s : Text) : Methods :=
  if s = "all".toList then .all else .objects (s.map fun _ => some strDoc)

/-- citations.py:36; `re.findall` of None is a TypeError -/
def docKeys : Option Text → Except Err (List Text)
  | some doc => .ok (findAll citeHere 0 doc)
  | none => .error .typeError

/-- citations.py:28-37, before duplicates are removed -/
def keysOf (content : Text) : Methods → Except Err (List Text)
  | .all => .ok (findAll keyHere 0 content)
  | .default => .ok ["PreliZ".toList, "Icazatti2023".toList]
  | .objects docs => do
    let ks ← docs.mapM docKeys
    return ks.flatten
  | .single => .error .typeError

/-- citations.py:5-46: what is returned and what is written to a file.  `enum` puts the elements of a `set` in the order
in which Python happens to iterate over them. -/
def citations (enum : List Text → List Text) (content : Text) (methods : Methods) (filepath : Option Text)
    (format : Text) : Except Err (Option Text × Option (Text × Text)) := do
  let ks ← keysOf content methods
  if format = "bibtex".toList then
    let text ← citationBibtex content (enum ks)
    match filepath with
    | none | some [] => return (some text, none)
    | some p => return (none, some (p, text))
  else .error .valueError

/-! ## The file -/

structure Entry where
  kind : Text
  key : Text
  body : Text

/-- how an entry is written -/
def Entry.text (e : Entry) : Text := '@' :: (e.kind ++ '{' :: (e.key ++ ',' :: (e.body ++ ['\n', '}'])))

/-- entries, with what stands behind each of them -/
def fileText (es : List (Entry × Text)) : Text := es.flatMap fun p => p.1.text ++ p.2

/-- the characters of a literal, written out when the literal is read -/
macro "chars! " s:str : term => do
  let cs := s.getString.toList.map Lean.Syntax.mkCharLit
  `([$(cs.toArray),*])

/-- internal/reference.bib, the five entries -/
def entries : List Entry :=
  [
    ⟨chars! "software", chars! "PreliZ",
     chars! "\n    author    = {Icazatti, Alejandro and\n                 Babbar, Rohan and\n                 Abril-Pla, Oriol and\n                 Klami, Arto and\n                 Martin, Osvaldo A},\n    title     = {PreliZ: A tool-box for prior elicitation},\n    month     = jan,\n    year      = 2025,\n    publisher = {Zenodo},\n    version   = {0.15.0},\n    doi       = {10.5281/zenodo.14619053},\n    url       = {https://doi.org/10.5281/zenodo.14619053},\n    swhid     = {swh:1:dir:755ff7ec1b224eb9473d5f58ef1c76bf10c2e807;\n                 origin=https://doi.org/10.5281/zenodo.8368035;\n                 visit=swh:1:snp:ce9432267312af4e0473c1987e3c1a54bb05de23;\n                 anchor=swh:1:rel:9284f4998394356b01ad93de1caa5b11a4c07e3c;\n                 path=arviz-devs-preliz-f2bb948}"⟩,
    ⟨chars! "article", chars! "Icazatti2023",
     chars! "\n    author = {Icazatti, Alejandro and Abril-Pla, Oriol and Klami, Arto and Martin, Osvaldo A},\n    doi = {10.21105/joss.05499},\n    journal = {Journal of Open Source Software},\n    month = sep,\n    number = {89},\n    pages = {5499},\n    title = {{PreliZ: A tool-box for prior elicitation}},\n    url = {https://joss.theoj.org/papers/10.21105/joss.05499},\n    volume = {8},\n    year = {2023}"⟩,
    ⟨chars! "article", chars! "Morris2014",
     chars! "\n    title = {A web-based tool for eliciting probability distributions from experts},\n    journal = {Environmental Modelling & Software},\n    volume = {52},\n    pages = {1-4},\n    year = {2014},\n    issn = {1364-8152},\n    doi = {10.1016/j.envsoft.2013.10.010},\n    url = {https://www.sciencedirect.com/science/article/pii/S1364815213002533},\n    author = {David E. Morris and Jeremy E. Oakley and John A. Crowe},\n    keywords = {Bayesian prior distribution, Expert judgement, Subjective probability, Web-based elicitation},\n    abstract = {We present a web-based probability distribution elicitation tool: The MATCH Uncertainty Elicitation Tool. The Tool is designed to help elicit probability distributions about uncertain model parameters from experts, in situations where suitable data is either unavailable or sparse. The Tool is free to use, and offers five different techniques for eliciting univariate probability distributions. A key feature of the Tool is that users can log in from different sites and view and interact with the same graphical displays, so that expert elicitation sessions can be conducted remotely (in conjunction with tele- or videoconferencing). This will make probability elicitation easier in situations where it is difficult to interview experts in person. Even when conducting elicitation remotely, interviewers will be able to follow good elicitation practice, advise the experts, and provide instantaneous feedback and assistance.}"⟩,
    ⟨chars! "Article", chars! "Michael2017",
     chars! "\n    AUTHOR = {Evans, Michael and Guttman, Irwin and Li, Peiying},\n    TITLE = {Prior Elicitation, Assessment and Inference with a {Dirichlet} Prior},\n    JOURNAL = {Entropy},\n    VOLUME = {19},\n    YEAR = {2017},\n    NUMBER = {10},\n    ARTICLE-NUMBER = {564},\n    URL = {https://www.mdpi.com/1099-4300/19/10/564},\n    ISSN = {1099-4300},\n    ABSTRACT = {Methods are developed for eliciting a Dirichlet prior based upon stating bounds on the individual probabilities that hold with high prior probability. This approach to selecting a prior is applied to a contingency table problem where it is demonstrated how to assess the prior with respect to the bias it induces as well as how to check for prior-data conflict. It is shown that the assessment of a hypothesis via relative belief can easily take into account what it means for the falsity of the hypothesis to correspond to a difference of practical importance and provide evidence in favor of a hypothesis.},\n    DOI = {10.3390/e19100564}"⟩,
    ⟨chars! "article", chars! "Burnham2004",
     chars! "\n  author  = {Kenneth P. Burnham and David R. Anderson},\n  title   = {Multimodel Inference: Understanding {AIC} and {BIC} in Model Selection},\n  journal = {Sociological Methods \\& Research},\n  volume  = {33},\n  number  = {2},\n  pages   = {261--304},\n  year    = {2004},\n  doi     = {10.1177/0049124104268644},\n  url     = {https://doi.org/10.1177/0049124104268644},\n  abstract = {The model selection literature has been generally poor at reflecting the deep foundations of the Akaike information criterion (AIC) and at making appropriate comparisons to the Bayesian information criterion (BIC). There is a clear philosophy, a sound criterion based in information theory, and a rigorous statistical foundation for AIC. AIC can be justified as Bayesian using a “savvy” prior on models that is a function of sample size and the number of model parameters. Furthermore, BIC can be derived as a non-Bayesian result. Therefore, arguments about using AIC versus BIC for model selection cannot be from a Bayes versus frequentist perspective. The philosophical context of what is assumed about reality, approximating models, and the intent of model-based inference should determine whether AIC or BIC is used. Various facets of such multimodel inference are presented here, particularly methods of model averaging.}"⟩
  ]

/-- internal/reference.bib: an empty line after each entry but the last -/
def referenceParts : List (Entry × Text) :=
  entries.zip [['\n', '\n'], ['\n', '\n'], ['\n', '\n'], ['\n', '\n'], ['\n']]

def referenceBib : Text := fileText referenceParts

end Verif.Citations
