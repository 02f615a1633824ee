# Formal model of signintech/pdft

Source: `/repo` (read as text, never built, never changed).  Model and proofs: Lean 4 in `/verif/lean`.

Sections 1 to 4 are written by hand (`tools/design_head.md`); section 5 is made from `properties.jsonl` and `MANIFEST.json`
by `tools/gen_design.py`.

## 1. Trusted base

* The Lean 4.33.0 kernel.
* Axioms: only `propext`, `Classical.choice` and `Quot.sound` (Lean's standard ones).  No own axioms, no
  `sorry`, no `native_decide`, no `bv_decide`.  `tools/audit.py` prints the axioms of every theorem named in
  `MANIFEST.json`; `tools/axioms.txt` is its output.
* The translation from Go to Lean was made by hand.  Every definition cites the lines it models and states
  its simplifications.
* The Go standard library functions of `GoLib.lean` and `Utf8.lean` are re-implemented in Lean from their documentation
  (for example `strings.TrimSpace`, `strconv.Atoi`, `bytes.Index`, decoding of UTF-8 in `range`, the fixed regular
  expressions of `regex.go` as leftmost matchers).
* Functions that are *parameters* of the model (fields of `Env`, or arguments; theorems hold for every choice, or state
  what they assume): MD5, zlib compression and decompression, base64 decoding, `image.DecodeConfig`, parsing of
  floating-point numbers, the iteration order of Go maps (`Shuffle`: any permutation, a different one for each loop),
  whether `append` moves a slice (`Env.realloc`), the text measuring function in the wrapping model, the random owner
  password.

## 2. Encoding

* `Bytes := List UInt8`.  Go `string` and `[]byte` are both `Bytes`.
* Go `int` is `Int` or `Nat` (unbounded).  `strconv.Atoi` does model the int64 range check.  Fixed-width integers are
  modelled as such where they wrap (PNG numbers, permission words, table readers).  Object numbers, font and image
  indexes and lengths are unbounded: the overflow of `max + 1` at 2^63 is not modelled.
* `float64` is exact (ℚ); `%0.2f` is exact rounding of a rational number.
* Outcome of a Go function: `Res α := ok a | err e | panic | hang`.  Panics (nil dereference, index out of range)
  and non-termination are explicit outcomes, never totalised away.  Loops and recursion that need not end take fuel and
  give `hang`; the fuel is shown to suffice where the claim needs it.
* Maps are association lists or functions.  Where Go iterates over a map, the order is an explicit argument and
  theorems quantify over it.
* Pointers: objects, fonts and images live in lists; writing through a pointer is an update at an index.
  The slice aliasing between `newpdf` and `i.pdf` in `build` is modelled where it is observable (C22).
* Methods of `PDFt` and `Render`: `Step σ := {state, res}`, the receiver afterwards together with the outcome.

## 3. What is modelled

| Go | Lean module (`lean/Verif/`) | remarks |
|---|---|---|
| strings, bytes, strconv, fmt, range over strings | `GoLib`, `Utf8`, `Basic` | only what pdft calls |
| pdf_obj_property_data.go, pdf_obj_properties_data.go | `Props` | whole files |
| pdf_data.go (store, page list), pdft.go page operations | `Store` | pointers as indexes |
| pdft.go `toStream`, `xref` | `Writer` | |
| pdf_parse.go, regex.go, xref_data.go, pdf_obj_data.go (reading) | `Parser` | |
| crawl.go, crawl_result*.go, pdf_data.go `getPageCrawl` | `Crawl` | |
| pdf_data.go `inject*ToPDF`, `streamLength`, `extractStream`, `findMaxFontIndex` | `Inject` | |
| content_text.go, content_line_style.go, content_img_base64.go, minigopdf/cache_content_text.go | `Content` | |
| textbreak/, `InsertWrapText`, `getConvertedStyle` | `Wrap` | width function abstract; `App.insertWrapText` is the same loop with effects |
| minigopdf/subset_font_obj.go, map_of_character_To_glyph_index.go, unicode_map.go, cid_font_obj.go, content_obj.go (units) | `Font` | |
| minigopdf/pdf_dictionary_obj.go, buff.go, buff_write.go, strhelper.go | `FontFile` | |
| minigopdf/fontmaker/core/ttfparser*.go | `TtfParse` | fields pdft never reads left out |
| minigopdf/pdf_protection.go, encryption_obj.go, pdf_obj_data.go `encrypt` | `Crypto` | RC4 in full, MD5 a parameter |
| minigopdf/image_obj*.go, smask_obj.go, img_info.go, pdf_image_data.go | `Image` | PNG in full, JPEG data passed through |
| pdft.go `PDFt` and its methods, pdf_font_data.go, `build`, `SaveTo` | `App` | |
| render/ | `Render` | |
| minigopdf/gopdf.go with current.go, content_obj.go, list_cache_content.go, cache_*.go, page_obj.go, pages_obj.go, catalog_obj.go, procset_obj.go, style.go, pdf_info_obj.go, fontmaker/core/ttfparser_kern.go | `GoPdf` | the generator, which pdft itself does not call; `Start` is called once, files are given by their bytes, dates are printed texts |

Not modelled: file access, `minigopdf/fontmaker` except the parser of fonts, objects of `minigopdf` that nothing makes
(`font_obj.go`, `encoding_obj.go`, `embedfont_obj.go`, `fontdescriptor_obj.go`), the buffers `WritePdf` and `Close` of `GoPdf`
(they pass on what `GetBytesPdf` makes), logging, concurrency (the package has none).

Concrete documents and environments for examples and refutations: `Samples`, `AppSamples`.

## 4. Specifications, lemmas, theorems

A property is stated with the definitions in `Spec/`, which say what is meant in terms of bytes, entries and references
and use of the model only the reader of dictionaries and references (itself the subject of C13, C14, C48 and C78):

| Spec | says |
|---|---|
| `Spec/Xref` | what a correct cross-reference table is, by looking at the bytes written |
| `Spec/Reopen` | object bodies without the keywords a reader searches for |
| `Spec/PageTree` | page trees as inductive trees, entries of objects |
| `Spec/Clean`, `Spec/Layout`, `Spec/Names` | which dictionaries are read and rewritten faithfully |
| `Spec/Save` | resources and contents of a page as a reader of the file finds them |
| `Spec/Flat` | documents with one level of pages, resources in place or shared |
| `Spec/Content` | operators and operands of content streams |
| `Spec/Paint` | what a viewer paints: lexer and interpreter of content streams with graphics state |
| `Spec/Object` | a reader of objects: values, dictionaries, streams, samples of images |
| `Spec/Plain` | simple notation of dictionaries, and what an independent reader finds in them |
| `Spec/StdTree` | page trees and their changes as an independent reader finds them |
| `Spec/StdSave` | which documents are linked in the usual way, and what saving may change in them |
| `Lemmas/StdRun` (Held, Shown, viewsOf, Call.edit), `Theorems/StdRun` (FileOf, PageSaved) | the pages of a document as a list, how calls edit the list, and the file that holds it |
| `Spec/File` | files with one cross-reference table, as the standard describes them |
| `Spec/GoText` | what the texts, cells and images of a session with `GoPdf` have to look like on the pages |
| `Spec/GoFonts` | which fonts and images the calls ask for, and what the resources of the pages of `GoPdf` have to hold |
| `Spec/GoPen` | how the calls of `GoPdf` move the pen and change the look of texts |
| `Spec/GoSeal` | what protection makes of a document of `GoPdf` |
| `Spec/Kern` | the pairs of kerning tables in font files |
| `Spec/GoPdf` | files, page trees and marks on pages that a session with `GoPdf` has to lead to |
| `Spec/Font`, `Spec/FontFile` | cmaps, glyph tables, table directories |
| `Spec/TtfFile` | where the values of a font are in its file |
| `Spec/Protected` | what protection makes of an object |
| `Spec/Crypto`, `Spec/Image` | security handler, PNG |

`Lemmas/` holds what the proofs need (reading and writing in normal form: `Norm`, `Normal`, `Canon`, `Tidy`, `Clean`,
`Layout`; crawling as a list of events: `Events`, `Flat`; and so on).  `Theorems/` holds the theorems named in
`MANIFEST.json`, each with an `example` that a concrete case meets its hypotheses.  Names ending in `_partial` prove less
than the property says, and their comment says what is missing; `_refuted` theorems give concrete inputs on which the
code violates the property.

`seeded/LOG.jsonl` lists the wrong programs tried against the theorems.

