# Formal model of signintech/pdft

Source: `/repo` (read as text, never built, never changed).  Model and proofs: Lean 4 in `/verif/lean`.

Sections 1 to 4 are written by hand (`tools/design_head.md`); section 5 is made from `properties.jsonl` and `MANIFEST.json`
by `tools/gen_design.py`.

## 1. Trusted base

* The Lean 4.33.0 kernel.
* Axioms: only `propext`, `Classical.choice` and `Quot.sound` (Lean's standard ones).  No own axioms, no
  `sorry`, no `native_decide`, no `bv_decide`.  `tools/audit.py` prints the axioms of every theorem named in
  `MANIFEST.json`; `tools/axioms.txt` is its output.
* The translation from Go to Lean was made by hand.  Every definition cites the lines it models and states
  its simplifications.
* The Go standard library functions of `GoLib.lean` and `Utf8.lean` are re-implemented in Lean from their documentation
  (for example `strings.TrimSpace`, `strconv.Atoi`, `bytes.Index`, decoding of UTF-8 in `range`, the fixed regular
  expressions of `regex.go` as leftmost matchers).
* Functions that are *parameters* of the model (fields of `Env`, or arguments; theorems hold for every choice, or state
  what they assume): MD5, zlib compression and decompression, base64 decoding, `image.DecodeConfig`, parsing of
  floating-point numbers, the iteration order of Go maps (`Shuffle`: any permutation, a different one for each loop),
  whether `append` moves a slice (`Env.realloc`), the text measuring function in the wrapping model, the random owner
  password.

## 2. Encoding

* `Bytes := List UInt8`.  Go `string` and `[]byte` are both `Bytes`.
* Go `int` is `Int` or `Nat` (unbounded).  `strconv.Atoi` does model the int64 range check.  Fixed-width integers are
  modelled as such where they wrap (PNG numbers, permission words, table readers).  Object numbers, font and image
  indexes and lengths are unbounded: the overflow of `max + 1` at 2^63 is not modelled.
* `float64` is exact (ℚ); `%0.2f` is exact rounding of a rational number.
* Outcome of a Go function: `Res α := ok a | err e | panic | hang`.  Panics (nil dereference, index out of range)
  and non-termination are explicit outcomes, never totalised away.  Loops and recursion that need not end take fuel and
  give `hang`; the fuel is shown to suffice where the claim needs it.
* Maps are association lists or functions.  Where Go iterates over a map, the order is an explicit argument and
  theorems quantify over it.
* Pointers: objects, fonts and images live in lists; writing through a pointer is an update at an index.
  The slice aliasing between `newpdf` and `i.pdf` in `build` is modelled where it is observable (C22).
* Methods of `PDFt` and `Render`: `Step σ := {state, res}`, the receiver afterwards together with the outcome.

## 3. What is modelled

| Go | Lean module (`lean/Verif/`) | remarks |
|---|---|---|
| strings, bytes, strconv, fmt, range over strings | `GoLib`, `Utf8`, `Basic` | only what pdft calls |
| pdf_obj_property_data.go, pdf_obj_properties_data.go | `Props` | whole files |
| pdf_data.go (store, page list), pdft.go page operations | `Store` | pointers as indexes |
| pdft.go `toStream`, `xref` | `Writer` | |
| pdf_parse.go, regex.go, xref_data.go, pdf_obj_data.go (reading) | `Parser` | |
| crawl.go, crawl_result*.go, pdf_data.go `getPageCrawl` | `Crawl` | |
| pdf_data.go `inject*ToPDF`, `streamLength`, `extractStream`, `findMaxFontIndex` | `Inject` | |
| content_text.go, content_line_style.go, content_img_base64.go, minigopdf/cache_content_text.go | `Content` | |
| textbreak/, `InsertWrapText`, `getConvertedStyle` | `Wrap` | width function abstract; `App.insertWrapText` is the same loop with effects |
| minigopdf/subset_font_obj.go, map_of_character_To_glyph_index.go, unicode_map.go, cid_font_obj.go, content_obj.go (units) | `Font` | |
| minigopdf/pdf_dictionary_obj.go, buff.go, buff_write.go, strhelper.go | `FontFile` | |
| minigopdf/fontmaker/core/ttfparser*.go | `TtfParse` | fields pdft never reads left out |
| minigopdf/pdf_protection.go, encryption_obj.go, pdf_obj_data.go `encrypt` | `Crypto` | RC4 in full, MD5 a parameter |
| minigopdf/image_obj*.go, smask_obj.go, img_info.go, pdf_image_data.go | `Image` | PNG in full, JPEG data passed through |
| pdft.go `PDFt` and its methods, pdf_font_data.go, `build`, `SaveTo` | `App` | |
| render/ | `Render` | |
| minigopdf/gopdf.go with current.go, content_obj.go, list_cache_content.go, cache_*.go, page_obj.go, pages_obj.go, catalog_obj.go, procset_obj.go, style.go, pdf_info_obj.go, fontmaker/core/ttfparser_kern.go | `GoPdf` | the generator, which pdft itself does not call; `Start` is called once, files are given by their bytes, dates are printed texts |

Not modelled: file access, `minigopdf/fontmaker` except the parser of fonts, objects of `minigopdf` that nothing makes
(`font_obj.go`, `encoding_obj.go`, `embedfont_obj.go`, `fontdescriptor_obj.go`), the buffers `WritePdf` and `Close` of `GoPdf`
(they pass on what `GetBytesPdf` makes), logging, concurrency (the package has none).

Concrete documents and environments for examples and refutations: `Samples`, `AppSamples`.

## 4. Specifications, lemmas, theorems

A property is stated with the definitions in `Spec/`, which say what is meant in terms of bytes, entries and references
and use of the model only the reader of dictionaries and references (itself the subject of C13, C14, C48 and C78):

| Spec | says |
|---|---|
| `Spec/Xref` | what a correct cross-reference table is, by looking at the bytes written |
| `Spec/Reopen` | object bodies without the keywords a reader searches for |
| `Spec/PageTree` | page trees as inductive trees, entries of objects |
| `Spec/Clean`, `Spec/Layout`, `Spec/Names` | which dictionaries are read and rewritten faithfully |
| `Spec/Save` | resources and contents of a page as a reader of the file finds them |
| `Spec/Flat` | documents with one level of pages, resources in place or shared |
| `Spec/Content` | operators and operands of content streams |
| `Spec/Paint` | what a viewer paints: lexer and interpreter of content streams with graphics state |
| `Spec/Object` | a reader of objects: values, dictionaries, streams, samples of images |
| `Spec/Plain` | simple notation of dictionaries, and what an independent reader finds in them |
| `Spec/StdTree` | page trees and their changes as an independent reader finds them |
| `Spec/StdSave` | which documents are linked in the usual way, and what saving may change in them |
| `Lemmas/StdRun` (Held, Shown, viewsOf, Call.edit), `Theorems/StdRun` (FileOf, PageSaved) | the pages of a document as a list, how calls edit the list, and the file that holds it |
| `Spec/File` | files with one cross-reference table, as the standard describes them |
| `Spec/GoText` | what the texts, cells and images of a session with `GoPdf` have to look like on the pages |
| `Spec/GoFonts` | which fonts and images the calls ask for, and what the resources of the pages of `GoPdf` have to hold |
| `Spec/GoPen` | how the calls of `GoPdf` move the pen and change the look of texts |
| `Spec/GoSeal` | what protection makes of a document of `GoPdf` |
| `Spec/Kern` | the pairs of kerning tables in font files |
| `Spec/GoPdf` | files, page trees and marks on pages that a session with `GoPdf` has to lead to |
| `Spec/Font`, `Spec/FontFile` | cmaps, glyph tables, table directories |
| `Spec/TtfFile` | where the values of a font are in its file |
| `Spec/Protected` | what protection makes of an object |
| `Spec/Crypto`, `Spec/Image` | security handler, PNG |

`Lemmas/` holds what the proofs need (reading and writing in normal form: `Norm`, `Normal`, `Canon`, `Tidy`, `Clean`,
`Layout`; crawling as a list of events: `Events`, `Flat`; and so on).  `Theorems/` holds the theorems named in
`MANIFEST.json`, each with an `example` that a concrete case meets its hypotheses.  Names ending in `_partial` prove less
than the property says, and their comment says what is missing; `_refuted` theorems give concrete inputs on which the
code violates the property.

`seeded/LOG.jsonl` lists the wrong programs tried against the theorems.

## 5. Properties

Status of every property; `partial` with a `_refuted` theorem means that the code violates the property as stated.

* **C01** Saved cross-reference rows point at their objects. *proved*: `C01_xref_points_at_objects`, `C01_saved`. every object list with distinct numbers; and every run of calls after opening a file with distinct numbers; toStream/xref, for all object lists with distinct ids in 1..lastID
* **C02** Cross-reference table is well formed. *proved*: `C02_xref_table_well_formed`, `C02_saved`. every run; row count, 20-byte rows, free list
* **C03** Trailer and startxref agree with the table. *proved*: `C03_trailer_agrees`, `C03_saved`. every run; trailer Size/Root/Encrypt and startxref
* **C04** Save then open is the identity on objects. *proved*: `C04_save_open`, `C04_saved`, `C04_entries`. every list of objects and every run of calls; documents that have a catalog and page sizes (otherwise opening fails by design), distinct numbers, files below 10^10 bytes; bodies without the keywords endobj, trailer, startxref and without texts like rows of a table (C67 shows that these break reading)
* **C05** RemovePage removes exactly the requested page. *partial*: `C05_remove_page_partial`. proved for documents whose page tree root dictionary is ASCII without free-standing angle brackets (other bodies are not rewritten faithfully, see C13)
* **C06** DuplicatePageAfter inserts one copy at the requested place. *partial*: `C06_duplicate_page_partial`, `C06_duplicate_succeeds_partial`. proved when the page tree root and the copied page dictionary are clean (see C13) and numbers stay below 2^63
* **C07** RemoveOtherPages keeps exactly the requested page. *partial*: `C07_refuted_keeps_next_page`, `C07_refuted_last_page_panics`, `C07_one_page_left_partial`. violated: keeps page k+1, crashes for the last page (for every document); proved: exactly one page is left
* **C08** Out-of-range page numbers are rejected without effect. *partial*: `C08_too_large_rejected_partial`, `C08_refuted_not_positive`, `C08_refuted_zero_accepted`, `C08_refuted_position`. numbers above the page count rejected; violated for numbers below 1 and for positions out of range
* **C09** Any history of page operations equals list editing. *partial*: `C09_history_is_list_editing_partial`. all finite histories of RemovePage and DuplicatePageAfter; page and root dictionaries clean (see C13)
* **C10** Page operations do not touch unrelated data. *partial*: `C10_frame_partial`. root and copied page clean (see C13)
* **C11** A duplicated page is independent of its source. *partial*: `C11_copy_is_independent_partial`. own page and content object, fresh numbers, same content
* **C12** New objects always get unused numbers. *proved*: `C12_fresh_numbers`. every sequence of API calls after opening a file with distinct, positive numbers
* **C13** Rewriting a dictionary loses nothing. *partial*: `C13_rewrite_lossless_partial`, `C13_refuted_high_bytes`, `C13_refuted_lone_angle`. proved for ASCII bodies without free-standing angle brackets; refuted otherwise
* **C14** References survive writing and reading. *partial*: `C14_refs_round_trip_partial`, `C14_written_array_partial`, `C14_refuted_empty_array`. proved for references and non-empty arrays; the empty array is read as an error
* **C15** Inserted content lands on its page, after the existing content, in call order. *partial*: `C15_contents_partial`, `C15_build`, `C15_insert`, `C15_insert_all`, `C15_insertImg`, `C15_saved_partial`, `C15_refuted_untouched`, `C15_refuted_all`, `C15_refuted_array`. Proved for the step of Save that writes contents, for pages with a content object of their own (plain or compressed, first byte visible); proved that the injected streams are those of the calls, in order. C15_saved_partial: the whole of Save without encryption, for flat page trees. Refuted: opening adds a line style to page 1 (in every such document, C15_refuted_all), and a page with several content streams gets the drawing after the first one.
* **C16** Rewritten content streams declare their true length. *partial*: `C16_true_length`, `C16_read_back_partial`, `C16_refuted_leading_space`, `C16_refuted_reopen`. The declared length is proved true for every rewritten stream. Reading back is proved for contents that begin with a visible character, and refuted for all that begin with white space (letters of endstream are taken for content, or reading crashes), also for a whole open-insert-save-open-insert-save run.
* **C17** Added fonts get fresh, distinct resource names. *partial*: `C17_refuted_deep`, `C17_fresh_partial`, `C17_saved_partial`. violated for a page below a second level of the page tree; proved for flat page trees for the whole of Save without encryption (names fresh, distinct, and used by the text operators), for every iteration order
* **C18** Fonts already used by a page keep their names. *partial*: `C18_refuted_all`, `C18_refuted`, `C18_kept_partial`, `C18_saved_partial`. violated: the name C2_0 becomes C20; on every flat document, each page with an underscore in the name of a font has such a font that is not found after Save (C18_refuted_all); proved for flat page trees and names made of a text and a number, for the whole of Save without encryption
* **C19** Images already used by a page keep their names. *partial*: `C19_refuted_reference`, `C19_refuted_name`, `C19_saved_partial`. violated for dictionaries given by reference and for names without number; proved for flat page trees, lists in place and names made of letters and a number, for the whole of Save without encryption
* **C20** Inserted images get fresh, distinct resource names. *partial*: `C20_refuted_order`, `C20_refuted_page`, `C20_first_partial`, `C20_more_partial`. violated: a name in use is given again, and an image is registered on the wrong page; proved for flat page trees without images, and for flat page trees with images if the resources are all in the pages or all in one object and every list has the greatest number last
* **C21** InsertImgWithCache stores equal images once. *proved*: `C21_cache`, `C21_opened`. For every sequence of successful calls and every digest without collision among the images.
* **C22** Saving twice gives the same document. *partial*: `C22_refuted_all`, `C22_refuted`. violated by every file that is opened and saved twice after any calls, as long as appending objects does not move them (always so without fonts and images): what was drawn is in the second file twice, on page 1 at least the style of lines that opening draws (C22_refuted_all); the conditions on the file are those of C84, and contents begin with a visible character
* **C23** Wrapping neither loses nor reorders text and respects the width. *proved*: `C23_wrap`, `C23_call`. every token list, every measure; see the theorem for what a line is. C23_call: the same for calls of InsertWrapText on a value with a font in use (using_of_run: after any calls), with the widths of C25_kerned and all values of the drawn texts
* **C24** The basic text breaker is lossless. *partial*: `C24_breaker_lossless_partial`, `C24_refuted_all`, `C24_refuted_invalid_utf8`. proved for valid UTF-8, and violated by every other text (C24_refuted_all): invalid bytes come back as U+FFFD
* **C25** Measured width is the sum of glyph widths. *proved*: `C25_width_is_sum`, `C25_width_additive`, `C25_drawn_width`, `C25_kerned`, `C25_call`. exact arithmetic instead of float64; C25_kerned: with kerning the advances are added; C25_call: for calls of MeasureTextWidth on a value with a font in use
* **C26** Drawn text encodes the right glyphs. *proved*: `C26_drawn_glyphs`. with any kerning and text rise override
* **C27** Extracting text from the output gives the inserted characters. *partial*: `C27_to_unicode_partial`, `C27_refuted_all`, `C27_refuted_shared_glyph`, `C27_refuted_supplementary`. proved for distinct glyphs and the basic plane; violated by every other character (C27_refuted_all)
* **C28** The embedded font contains the outline of every used glyph. *partial*: `C28_made`, `C28_subset_partial`, `C28_shared_partial`, `C28_refuted_shared_glyph`, `C28_refuted_all`. proved for used glyphs below the first one that is repeated; in every file in which two characters share a glyph all glyphs with a greater number have an empty outline (C28_refuted_all)
* **C29** Composite glyphs are embedded with all their parts. *partial*: `C29_parts_partial`, `C29_refuted_nested`, `C29_refuted_all`. proved when composite parts are used themselves; violated for other nested composites: in every file a glyph that is only a part of a part has an empty outline (C29_refuted_all)
* **C30** Characters map to the glyph the font's character map says. *partial*: `C30_format4`, `C30_format12_partial`, `C30_refuted_last_of_group`. format 4 proved for well-formed tables; format 12 misses the last character of every group; in terms of the font file: C77
* **C31** The width array agrees with the measured widths. *proved*: `C31_width_array`.
* **C32** The embedded font file's table directory is correct. *proved*: `C32_table_directory`. file below 4 GiB; checksums of copied tables are those of the source font
* **C33** Encrypted streams decrypt to the original bytes. *partial*: `C33_stream_decrypts`, `C33_no_stream_partial`, `C33_refuted_all`, `C33_refuted_word_stream`, `C33_rc4_vectors`. MD5 abstract; RC4 checked against published results; proved for all stream objects; every object with the word stream but not the word endstream makes saving crash (C33_refuted_all)
* **C34** Encryption keeps the declared stream length true. *partial*: `C34_length_kept_partial`, `C34_refuted_all`, `C34_refuted_line_end`. violated for streams that begin or end with a line end, by every stream with two or more such bytes (C34_refuted_all)
* **C35** Password entries allow the standard checks. *partial*: `C35_password_entries_partial`, `C35_low_byte`, `C35_refuted_all`, `C35_refuted_high_bits`. proved for permission words below 256; violated by every permission word with one of the bits 8 to 31 (C35_refuted_all), whatever the hash function: the key is made from other bytes than the written ones
* **C36** Encryption strings survive escaping. *proved*: `C36_escape_round_trip`, `C36_dictionary`. all byte strings
* **C37** Font units are converted exactly. *proved*: `C37_unit_conversion`. all integers n, all u > 0
* **C38** Coordinates use the height of the page drawn on. *partial*: `C38_after_open_partial`, `C38_refuted`, `C38_refuted_all`. holds directly after opening when the rectangles stand in the pages; violated after RemovePage, and by every well-formed file for each page whose rectangle is an object of its own: it is taken to be 841.89 high (C38_refuted_all)
* **C39** A failed Insert has no effect. *partial*: `C39_unknown_partial`, `C39_refuted_all`, `C39_refuted`. holds when the font is unknown; violated by every insertion that fails because of a missing glyph: the text is drawn nevertheless
* **C40** Unknown font names are errors, never crashes. *partial*: `C40_setFont`, `C40_textrise`, `C40_kern`, `C40_insert`, `C40_addFont`, `C40_refuted_measure`, `C40_refuted_measure_all`, `C40_refuted_wrap`. proved for all calls but MeasureTextWidth and InsertWrapText with a text breaker, which crash in every state whose font is unknown
* **C41** PNG numbers are read as written. *partial*: `C41_small_numbers_partial`, `C41_refuted_large_numbers`. violated for every value from 32768 on
* **C42** PNG alpha separation is lossless. *partial*: `C42_rgb_planes_partial`, `C42_refuted_gray`, `C42_refuted_gray_same_object`. RGB with alpha proved (dimensions and chunks below 32768); gray with alpha violated
* **C43** The requested text colour is used. *partial*: `C43_colour_set_partial`, `C43_refuted_all`, `C43_refuted_sum`. violated for all colours whose components add up to 256 or 512, whatever the text (C43_refuted_all)
* **C44** Opening a second document forgets the first. *partial*: `C44_refuted_fails`, `C44_refuted_same`, `C44_refuted_kept`, `C82_open`. The code violates the property: whatever the value held before, all its objects, rows, contents and images are still there after opening another document (C44_refuted_kept, for every state); only the names of fonts and the cache of images are forgotten (C82_open)
* **C45** Template fields are filled by key. *proved*: `C45_new`, `C45_unknown`, `C45_text`, `C45_img`.
* **C46** Open reports malformed input as an error. *partial*: `C46_refuted_all`, `C46_refuted_inherited`, `C46_refuted_cycle`, `C46_refuted_kids`. violated: crashes on every well-formed file with a page that inherits its MediaBox (C46_refuted_all) and missing kids, does not end on a cyclic tree
* **C47** Nested page trees are read in document order. *proved*: `C47_pages_in_document_order`. trees of any shape and depth
* **C48** Dictionary reading ignores layout. *partial*: `C48_layout_partial`, `C48_refuted`. The code violates the property as stated: C48_refuted (an array read with and without a blank after the bracket). C48_layout_partial: layouts that put white space before words in the same places are read alike, whatever the amount and kind of the white space elsewhere.
* **C49** Save keeps each resource dictionary free of repeated keys. *partial*: `C49_refuted`, `C49_refuted_all`, `C49_unshared_partial`. The code violates the property: C49_refuted is a document with a resource object shared by two pages, whose keys are repeated after open and save. In every flat document the step that adds the fonts writes each key of a shared resource object with a font list in place as often as there are pages that share it (C49_refuted_all).
* **C50** Font style letters are parsed as a set. *proved*: `C50_style_letters`.
* **C51** All pages see every added font. *partial*: `C51_fonts_seen_partial`, `C51_saved_partial`. proved for flat page trees for the whole of Save without encryption; deeper page trees are missing (C17_refuted_deep shows that it fails there)
* **C52** Big-endian readers and writers are inverse. *proved*: `C52_read_written`, `C52_written_read`, `C52_write_frame`.
* **C53** Palette images refer to their own palette. *partial*: `C53_refuted_palette_lost`. violated for every palette image
* **C54** Alignment places text inside its cell. *proved*: `C54_horizontal`, `C54_vertical`, `C54_written`. exact arithmetic instead of float64
* **C55** Strings are encrypted. *partial*: `C55_refuted_all`, `C55_refuted_plain_string`. violated: strings outside streams are not encrypted; in every protected file all that stands before the streams is as in the unprotected one (C55_refuted_all)
* **C56** PNG files are read without crashing. *partial*: `C56_reading_ends_partial`, `C56_refuted_chunk_size`. ends always; crashes on data chunks of 32768 to 65535 bytes
* **C57** All data of a PNG file is used. *partial*: `C57_data_kept_partial`, `C57_refuted_all`, `C57_refuted_empty_chunk`. violated for files with an empty chunk: all data after it is lost (C57_refuted_all)
* **C58** Explicit black text is black. *partial*: `C58_refuted_black`, `C58_refuted_all`, `C58_default_partial`. violated for every text: no colour operator is written for black; a text without a colour is set to black
* **C59** Numbers in the operators are accurate. *proved*: `C59_numbers_accurate`. exact rationals instead of float64
* **C60** Cell borders are the edges of the cell. *proved*: `C60_borders`, `C60_drawn`. horizontal edges are longer by half the line width at both ends
* **C61** The newest version of an object is used. *partial*: `C61_one_of_them`, `C61_last_annotated_partial`, `C61_refuted_first`, `C61_refuted_annotations`. violated: the first version is used unless one has /Annots
* **C62** Only resource dictionaries get image entries. *partial*: `C62_refuted_all`, `C62_refuted`. violated when no resource dictionary has an /XObject entry: C62_refuted_all says that Save then writes the entry, with every inserted image, into the catalog, for every document (linked in the usual way, in the sense of C83) whose resources are objects of their own
* **C63** The width of kerned text is the width drawn. *proved*: `C63_width_is_advance`. integer kerning values of any size instead of int16; the text rise override prints a number
* **C64** Save keeps the resources of every page. *partial*: `C64_refuted`, `C64_fonts_step_partial`, `C64_saved_partial`. The code violates the property: C64_refuted is a document with resources in place in one page and by reference in another; the second page loses its fonts.
* **C65** Save keeps the pages. *partial*: `C65_pages_kept_partial`. an added /XObject entry is not excluded; proved for flat page trees and Save without encryption; deeper page trees are missing
* **C66** Save leaves unrelated objects alone. *partial*: `C66_others_kept_partial`. proved for flat page trees and Save without encryption; deeper page trees are missing
* **C67** Streams do not matter to the reader. *partial*: `C67_refuted_all`, `C67_refuted_cut`, `C67_refuted_streams_matter`. The code violates the property: keywords inside streams cut off objects, make opening fail or crash, or add objects (C67_refuted_streams_matter). C67_refuted_cut: whatever file is opened, no object read has bytes with endobj in them. C67_refuted_all: whatever was opened and called, a saved file with startxref in an object and trailer in none cannot be opened. C04_save_open is what holds.
* **C68** Protection changes only the bytes of streams. *proved*: `C68_protection`, `C68_saved`, `C68_entries`, `C68_named`, `C68_contents`. every value and every run of calls; MD5 abstract (sums of 16 bytes); what C15 to C20, C51, C64 to C66 say about documents without protection carries over to the dictionaries by C68_entries and C68_named and to contents by C68_contents
* **C69** Saving a protected document again. *partial*: `C69_refuted_all`, `C69_refuted_twice`, `C69_refuted_clear`. The code violates the property: build encrypts the objects it shares with the receiver, so that a second Save enciphers them again, which with RC4 gives back the plain streams: the second file has them in the clear (C69_refuted_all: for every protected value, each object that the second Save would otherwise leave alone). For the first Save see C68.
* **C70** A viewer paints what was there and then what was asked for. *partial*: `C70_page_partial`, `C70_text`, `C70_image`, `C70_style`, `C15_insert`, `C15_insertImg`. C70_text, C70_image and C70_style say what a viewer (Spec/Paint: a reader of content streams with graphics state) paints for one content; C70_page_partial puts them together for a saved page of a flat document without protection. Missing: texts with characters the font does not have, fonts with 0 units per em or a negative underline thickness, rise overrides that do not print numbers, several content streams, other page trees; which kerning and rise apply is part of the statement
* **C71** The page's own content does not move what is inserted. *partial*: `C71_refuted_all`, `C71_refuted`. The code violates the property: the inserted content follows the page's own without q and Q around it. C71_refuted_all: on every page whose own content leaves turned, slanted or shifted coordinates every image is elsewhere, and clipping paths stay. If the page's own content restores the coordinates, C70_page_partial gives the place
* **C72** Cell borders are drawn in their style on every page. *partial*: `C72_refuted_all`, `C72_refuted_second_page`, `C72_first_page_partial`. The code violates the property: the style is always written on page 1 (content_line_style.go:28-30). C72_refuted_all: on all other pages, for every file and all calls, borders have the style the page's own content leaves
* **C73** The text rise of one font does not affect texts in another. *partial*: `C73_refuted_all`, `C73_refuted_rise`, `C73_rise_partial`, `C82_call`. The code violates the property: the rise is never set back to 0, so that every text after a raised one is raised (C73_refuted_all). That an override is stored at the named font only is C82_call
* **C74** Image objects show the image of the file. *partial*: `C74_alpha_partial`, `C74_plain_partial`, `C74_jpeg`, `C74_insertImg`, `C74_saved_partial`, `C74_refuted_format`. Proved with an independent reader of objects (Spec/Object) for JPEG, for gray and RGB PNG without alpha and for RGB PNG with alpha, 8 bits, with dimensions and chunks below 32768 and without empty chunks, given that decompression undoes compression. Violated: gray with alpha (C42), palettes (C53), large sizes (C41), empty chunks (C57), other formats
* **C75** Embedded fonts are complete. *partial*: `C75_saved_partial`, `C75_run_partial`, `C75_refuted_name`, `C75_refuted_name_all`, `C75_refuted_twice`. Proved with an independent reader of objects (Spec/Object) for the first Save of flat documents without protection and names of fonts without delimiters. Violated: names with delimiters (C75_refuted_name_all: every name that ends with brackets), and every later save (the buffers of the fonts are appended to)
* **C76** Saving succeeds. *partial*: `C76_saved_partial`, `C76_protected_partial`, `C76_refuted`. Proved for documents with a flat page tree whose pages meet CanSave, after any calls, with fonts whose tables agree with each other. With protection: exactly if every object with the word stream has endstream after it. Violated: an unedited document cannot be saved if no page has resources, if a font has a name like /Helv or /A_B1, if a font is written in the list of fonts, or if the resources have exactly three words
* **C77** The font is read as the file says. *partial*: `C77_read`, `C77_accepted`, `C77_glyph`, `C77_glyph12_partial`, `C77_outline`, `C77_embedded_partial`, `C77_crash_partial`, `C77_refuted_glyph12`, `C77_refuted_glyph12_all`, `C77_refuted_crash`, `C77_refuted_missing`. Proved against positions of the OpenType specification (Spec/TtfFile): all values read, acceptance of every sound file, characters up to U+FFFF, outlines. Violated: the last character of every format 12 group of every file has no glyph (C77_refuted_glyph12_all), a file with no horizontal metrics but with glyphs crashes AddFont (the only crash), and a missing hmtx table is not noticed. Embedding has the limits of C28 and C29
* **C78** Dictionaries are read and rewritten as the standard says. *partial*: `C78_read_partial`, `C78_rewritten_partial`, `C78_entry`, `C78_no_entry`, `C78_refuted_blanks`, `C78_refuted_slash`, `C78_refuted_comment`, `C78_refuted_paren`. proved for simple notation against an independent lexer and reader of objects; outside of it the statement is false, as the refutations show; other notations (other white space, bytes above 126, escapes before special characters) are not covered
* **C79** Pages are found where the standard says. *partial*: `C79_pages_partial`, `C79_refuted_indirect`, `C79_refuted_stream`. Proved against an independent reader of objects and page trees for simply written dictionaries (C78). Violated: an indirect array of kids, the word stream in a string
* **C80** Page operations as an independent reader sees them. *partial*: `C80_remove_partial`, `C80_duplicate_partial`, `C80_duplicate_succeeds_partial`, `C80_history_partial`, `C80_refuted_parent`, `C80_refuted_all`. Proved against an independent reader of objects and page trees for simply written dictionaries (C78). Violated: in trees with more than one level, pages keep the old /Parent although they are moved below the root, in every such tree (C80_refuted_all)
* **C81** Opening reads the objects that the cross-reference table says. *partial*: `C81_objects_partial`, `C81_open_partial`, `C81_openFrom_partial`, `C81_refuted_update`, `C81_refuted_forms`. every file with one table, any number of subsections and rows; the description of the file (Spec/File) is independent of the parser. Assumed: the first line of an object has single white-space bytes, no object has endobj inside, and no text before the table or in the trailer looks like trailer, startxref or a row (C67 shows that these matter); dictionaries are simply written (C78); the number syntax of the standard is accepted by ParseFloat. Refuted: a file with an update is opened in its old version (both versions of the object are kept, the first is used); objects of generation 1 or with two blanks in the first line make opening fail. Inherited /MediaBox: see C46
* **C82** A session of calls amounts to the fonts and overrides asked for. *proved*: `C82_call`, `C82_session`, `C82_outcome`, `C82_contents`, `C82_open`. for every sequence of calls with any outcomes, from every state whose font map is in order (which opening establishes: C82_open); the session (Session.after) is a specification of its own over names
* **C83** Saving keeps the document as an independent reader sees it. *partial*: `C83_saved_partial`, `C83_content_partial`, `C83_refuted_images`, `C83_refuted_mixed`. proved for page trees of any shape and every iteration order, for documents linked in the usual way (Spec/StdSave): entries simply written, images in place, resources of all pages either in place or not, content streams of their own. The code violates it for images in a dictionary of their own (they are lost: C83_refuted_images) and for resources partly in place (the page is no longer a dictionary: C83_refuted_mixed). That fonts and images reach every page is the subject of C17, C19, C20 and C70; in deeper trees they do not
* **C84** From file to file, only the asked changes happen. *partial*: `C84_run_partial`, `C84_call_partial`, `C84_calls_partial`, `C84_save_partial`, `C84_saved_partial`. proved from the bytes of the opened file to the bytes of the saved file, for files in the sense of Spec/File whose document is linked in the usual way (Spec/StdSave) with one content stream per page of its own; not covered: a Save between the calls (C84_saved_partial says what the receiver holds after one, and C22_refuted_all that contents are drawn again), removing the last page, protection (see C93), incremental updates and object streams. RemoveOtherPages keeps the page after the one named (C09), and that is what Call.edit says. Where the code violates the property for documents of other forms: C75, C79, C81, C83
* **C85** GoPdf writes a sound file. *partial*: `C85_file_partial`, `C85_refuted_all`, `C85_refuted_utf16_all`, `C85_refuted_date`, `C85_refuted_utf16`. proved for every state, with and without protection; assumed: the file is shorter than 10^10 bytes, the information has no creation date and only characters of the first plane. Violated: a creation date closes the dictionary of the information once too often, so that the trailer of every dated document cannot be read (C85_refuted_all); every text with a character beyond the first plane is not UTF-16 (C85_refuted_utf16_all)
* **C86** What a session with GoPdf draws is what the file shows. *partial*: `C86_session_partial`, `C86_total`, `C86_refuted_empty_all`, `C86_refuted_twice_all`, `C86_refuted_empty`, `C86_refuted_twice`. proved for every sequence of calls that puts no texts and no images on a page, without protection (with one: C92), if something is drawn on each page; that writing succeeds is proved for sessions without fonts. Violated: the object of every page on which nothing is drawn is malformed (C86_refuted_empty_all), and every document that is written twice is malformed the second time (C86_refuted_twice_all). What is drawn before the first page is on no page
* **C87** The texts and images of a session with GoPdf are shown where and how they were asked for. *partial*: `C87_session_partial`, `C87_position`, `C87_refuted_advance`, `C87_refuted_cell_all`, `C87_refuted_cell`, `C87_refuted_kern`, `C87_refuted_measure`. proved for every session of successful calls without protection (with one: C92), if something is on each page and the fonts have a size and underlines that are not negative; a text that is written with the same settings as the one before continues that. Violated: after two texts that were joined the position is too far to the right, every cell that directly follows a text loses its rectangle and edges (C87_refuted_cell_all), overriding the kerning of a font added without kerning has no effect, MeasureTextWidth always crashes
* **C88** The texts and images of a document written by GoPdf find their fonts and images in its resources. *partial*: `C88_session_partial`, `C88_text`, `C88_picture`, `C88_refuted_palette`, `C88_refuted_mask_all`, `C88_refuted_mask`, `C88_refuted_font`, `C88_refuted_level`. proved for every session of successful calls without protection (with one: C92), if no font is added with the style underline, for images without alpha and palette; the object of an image is the one C74 describes. Violated: documents with an image that has a palette cannot be written, /SMask of every image with alpha names the number one below that of its mask (C88_refuted_mask_all; it can be the image itself, C88_refuted_mask), a font that was added underlined before makes the texts in the plain one use the font F1, levels above 9 change nothing
* **C89** Every text of a document made by GoPdf has the look and the place that were in force when it was begun. *proved*: `C89_session`, `C89_text`, `C87_position`. for documents without protection; after a text that is added to the one before the pen has moved by the width of both (C87_refuted_advance), which the specification of the pen says
* **C90** Letters of a font that is used with its kerning are moved by the distances in the font file. *partial*: `C90_read_partial`, `C90_none`, `C90_pair`, `C90_refuted_tables`, `C90_refuted_format`. proved for tables with one subtable of format 0 that is complete; how texts are made from the distances is C31, C38 and C60. Violated: of several subtables only the last one counts, and a subtable of format 2 is read as pairs (the wrong bits of the coverage are tested)
* **C91** A document written by GoPdf can be opened by pdft. *partial*: `C91_open_partial`, `C91_refuted_inherited`. proved for documents without information and password whose pages all have a size of their own and something on them, if no object has keywords of the file structure in it. Violated: a page with the size of the document has no /MediaBox of its own, and Open dereferences a nil pointer
* **C92** A protected document of GoPdf is, to whoever knows the password, the document without protection. *partial*: `C92_session_partial`, `C92_refuted_strings`, `C92_refuted_strings_all`. proved for every session of successful calls with permissions in the lowest eight bits (all permissions that are defined), under the conditions of C88; /Encrypt is found in trailers without /Info. Violated: strings in the dictionaries of fonts are not enciphered, so readers find another ordering than Identity; so it is for every font of every protected document (C92_refuted_strings_all)
* **C93** A protected file saved by pdft is, to whoever knows the password, the file saved without protection. *partial*: `C93_run_partial`, `C68_saved`, `C34_refuted_line_end`. proved under the conditions of C84, with permissions in the lowest eight bits; streams are deciphered up to the line ends around them, which protection drops while /Length still counts them (C34); strings stay in the clear (C55)
* **C94** What is seen on the pages of a saved file is what was on them and what was inserted. *partial*: `C94_run_partial`, `C94_protected_partial`, `C71_refuted`. proved under the conditions of C84 for texts whose characters are in the font, fonts with units per em and underlines that are not negative, and overrides that print numbers; the calls make the contents as C45 says. Violated: the place is in the coordinates the page's own content leaves (C71), and page 1 gets the line style that opening adds (C72)
* **C95** A file that is protected already is refused or stays readable. *partial*: `C95_refuted`, `C95_refuted_dropped`, `C95_witness`. violated, and proved so: opening looks for /Root only (pdf_parse.go:117-148), so that a protected file is opened without an error; for every such file and all calls that do not ask for protection the saved trailer has no /Encrypt while the streams stay enciphered and drawings are put behind them in the clear (C95_refuted_dropped); C95_witness shows that the file of C95_refuted is protected with a password and what its contents are
* **C96** Wrapped text fills its cell as its alignment says. *partial*: `C96_top_partial`, `C96_refuted_blank`, `C96_refuted_middle`, `C96_refuted_bottom`, `C96_refuted_gap`. the place is proved for texts aligned to the top whose first token fits. Violated, for every call of the kind: a first token that is too wide is preceded by an empty line, text aligned to the middle is a tenth of the font size too high, of text aligned to the bottom all lines but the first are below the place of a single line; a blank that fits neither behind the word before it nor before the one after it makes an empty line
* **C97** Nothing that is inserted is lost. *partial*: `C97_refuted_outside`, `C97_refuted_accepted`, `C97_refuted_bare_all`, `C97_refuted_bare`, `C97_refuted_shared_all`, `C97_refuted_shared`, `C15_saved_partial`. holds for pages with a content stream of their own (C15, C84, C94). Violated: insertions on pages the document does not have are dropped without an error (for every document), so are insertions on a page without /Contents (also proved for every document: saving gives the same as without them); of insertions on pages that share their content only those on the last page remain, and they are on all of them (proved for every document)
* **C98** The content of a page survives whatever its filter. *partial*: `C98_refuted_all`, `C98_refuted`. violated, and proved so for every flat document: of a page that is drawn on, the encoded bytes are kept and the filter is dropped; because opening draws a line style on page 1 (C72), opening and saving is enough
* **C99** Removed pages are not in the saved file. *partial*: `C99_refuted_all`, `C99_refuted`. violated, and proved so for every flat document and all calls: an object that no page refers to any more is written to the saved file as it was, with a row in the cross-reference table
* **C100** The line of an underlined text is below the text. *partial*: `C100_line_partial`, `C100_refuted_right`, `C100_refuted_bottom`, `C100_refuted_zero`, `C100_refuted_go`, `C100_refuted`. holds at the top left of a cell as wide as the text and for fonts whose ascender is 7 tenths of the em; violated for every text at the right or the bottom of its cell, for every cell of the width 0, for a negative thickness and for every text written by Text of GoPdf
