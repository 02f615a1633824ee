{
 "claims": [
  {
   "property": "C01",
   "status": "proved",
   "theorems": [
    "Verif.C01_xref_points_at_objects",
    "Verif.C01_saved"
   ],
   "note": "every object list with distinct numbers; and every run of calls after opening a file with distinct numbers; toStream/xref, for all object lists with distinct ids in 1..lastID"
  },
  {
   "property": "C02",
   "status": "proved",
   "theorems": [
    "Verif.C02_xref_table_well_formed",
    "Verif.C02_saved"
   ],
   "note": "every run; row count, 20-byte rows, free list"
  },
  {
   "property": "C03",
   "status": "proved",
   "theorems": [
    "Verif.C03_trailer_agrees",
    "Verif.C03_saved"
   ],
   "note": "every run; trailer Size/Root/Encrypt and startxref"
  },
  {
   "property": "C04",
   "status": "proved",
   "theorems": [
    "Verif.C04_save_open",
    "Verif.C04_saved",
    "Verif.C04_entries"
   ],
   "note": "every list of objects and every run of calls; documents that have a catalog and page sizes (otherwise opening fails by design), distinct numbers, files below 10^10 bytes; bodies without the keywords endobj, trailer, startxref and without texts like rows of a table (C67 shows that these break reading)"
  },
  {
   "property": "C05",
   "status": "partial",
   "theorems": [
    "Verif.C05_remove_page_partial"
   ],
   "note": "proved for documents whose page tree root dictionary is ASCII without free-standing angle brackets (other bodies are not rewritten faithfully, see C13)"
  },
  {
   "property": "C06",
   "status": "partial",
   "theorems": [
    "Verif.C06_duplicate_page_partial",
    "Verif.C06_duplicate_succeeds_partial"
   ],
   "note": "proved when the page tree root and the copied page dictionary are clean (see C13) and numbers stay below 2^63"
  },
  {
   "property": "C07",
   "status": "partial",
   "theorems": [
    "Verif.C07_refuted_keeps_next_page",
    "Verif.C07_refuted_last_page_panics",
    "Verif.C07_one_page_left_partial"
   ],
   "note": "violated: keeps page k+1, crashes for the last page (for every document); proved: exactly one page is left"
  },
  {
   "property": "C08",
   "status": "partial",
   "theorems": [
    "Verif.C08_too_large_rejected_partial",
    "Verif.C08_refuted_not_positive",
    "Verif.C08_refuted_zero_accepted",
    "Verif.C08_refuted_position"
   ],
   "note": "numbers above the page count rejected; violated for numbers below 1 and for positions out of range"
  },
  {
   "property": "C09",
   "status": "partial",
   "theorems": [
    "Verif.C09_history_is_list_editing_partial"
   ],
   "note": "all finite histories of RemovePage and DuplicatePageAfter; page and root dictionaries clean (see C13)"
  },
  {
   "property": "C10",
   "status": "partial",
   "theorems": [
    "Verif.C10_frame_partial"
   ],
   "note": "root and copied page clean (see C13)"
  },
  {
   "property": "C100",
   "status": "partial",
   "theorems": [
    "Verif.C100_line_partial",
    "Verif.C100_refuted_right",
    "Verif.C100_refuted_bottom",
    "Verif.C100_refuted_zero",
    "Verif.C100_refuted_go",
    "Verif.C100_refuted"
   ],
   "note": "holds at the top left of a cell as wide as the text and for fonts whose ascender is 7 tenths of the em; violated for every text at the right or the bottom of its cell, for every cell of the width 0, for a negative thickness and for every text written by Text of GoPdf"
  },
  {
   "property": "C11",
   "status": "partial",
   "theorems": [
    "Verif.C11_copy_is_independent_partial"
   ],
   "note": "own page and content object, fresh numbers, same content"
  },
  {
   "property": "C12",
   "status": "proved",
   "theorems": [
    "Verif.C12_fresh_numbers"
   ],
   "note": "every sequence of API calls after opening a file with distinct, positive numbers"
  },
  {
   "property": "C13",
   "status": "partial",
   "theorems": [
    "Verif.C13_rewrite_lossless_partial",
    "Verif.C13_refuted_high_bytes",
    "Verif.C13_refuted_lone_angle"
   ],
   "note": "proved for ASCII bodies without free-standing angle brackets; refuted otherwise"
  },
  {
   "property": "C14",
   "status": "partial",
   "theorems": [
    "Verif.C14_refs_round_trip_partial",
    "Verif.C14_written_array_partial",
    "Verif.C14_refuted_empty_array"
   ],
   "note": "proved for references and non-empty arrays; the empty array is read as an error"
  },
  {
   "property": "C15",
   "status": "partial",
   "theorems": [
    "Verif.C15_contents_partial",
    "Verif.C15_build",
    "Verif.C15_insert",
    "Verif.C15_insert_all",
    "Verif.C15_insertImg",
    "Verif.C15_saved_partial",
    "Verif.C15_refuted_untouched",
    "Verif.C15_refuted_all",
    "Verif.C15_refuted_array"
   ],
   "note": "Proved for the step of Save that writes contents, for pages with a content object of their own (plain or compressed, first byte visible); proved that the injected streams are those of the calls, in order. C15_saved_partial: the whole of Save without encryption, for flat page trees. Refuted: opening adds a line style to page 1 (in every such document, C15_refuted_all), and a page with several content streams gets the drawing after the first one."
  },
  {
   "property": "C16",
   "status": "partial",
   "theorems": [
    "Verif.C16_true_length",
    "Verif.C16_read_back_partial",
    "Verif.C16_refuted_leading_space",
    "Verif.C16_refuted_reopen"
   ],
   "note": "The declared length is proved true for every rewritten stream. Reading back is proved for contents that begin with a visible character, and refuted for all that begin with white space (letters of endstream are taken for content, or reading crashes), also for a whole open-insert-save-open-insert-save run."
  },
  {
   "property": "C17",
   "status": "partial",
   "theorems": [
    "Verif.C17_refuted_deep",
    "Verif.C17_fresh_partial",
    "Verif.C17_saved_partial"
   ],
   "note": "violated for a page below a second level of the page tree; proved for flat page trees for the whole of Save without encryption (names fresh, distinct, and used by the text operators), for every iteration order"
  },
  {
   "property": "C18",
   "status": "partial",
   "theorems": [
    "Verif.C18_refuted_all",
    "Verif.C18_refuted",
    "Verif.C18_kept_partial",
    "Verif.C18_saved_partial"
   ],
   "note": "violated: the name C2_0 becomes C20; on every flat document, each page with an underscore in the name of a font has such a font that is not found after Save (C18_refuted_all); proved for flat page trees and names made of a text and a number, for the whole of Save without encryption"
  },
  {
   "property": "C19",
   "status": "partial",
   "theorems": [
    "Verif.C19_refuted_reference",
    "Verif.C19_refuted_name",
    "Verif.C19_saved_partial"
   ],
   "note": "violated for dictionaries given by reference and for names without number; proved for flat page trees, lists in place and names made of letters and a number, for the whole of Save without encryption"
  },
  {
   "property": "C20",
   "status": "partial",
   "theorems": [
    "Verif.C20_refuted_order",
    "Verif.C20_refuted_page",
    "Verif.C20_first_partial",
    "Verif.C20_more_partial"
   ],
   "note": "violated: a name in use is given again, and an image is registered on the wrong page; proved for flat page trees without images, and for flat page trees with images if the resources are all in the pages or all in one object and every list has the greatest number last"
  },
  {
   "property": "C21",
   "status": "proved",
   "theorems": [
    "Verif.C21_cache",
    "Verif.C21_opened"
   ],
   "note": "For every sequence of successful calls and every digest without collision among the images."
  },
  {
   "property": "C22",
   "status": "partial",
   "theorems": [
    "Verif.C22_refuted_all",
    "Verif.C22_refuted"
   ],
   "note": "violated by every file that is opened and saved twice after any calls, as long as appending objects does not move them (always so without fonts and images): what was drawn is in the second file twice, on page 1 at least the style of lines that opening draws (C22_refuted_all); the conditions on the file are those of C84, and contents begin with a visible character"
  },
  {
   "property": "C23",
   "status": "proved",
   "theorems": [
    "Verif.C23_wrap",
    "Verif.C23_call"
   ],
   "note": "every token list, every measure; see the theorem for what a line is. C23_call: the same for calls of InsertWrapText on a value with a font in use (using_of_run: after any calls), with the widths of C25_kerned and all values of the drawn texts"
  },
  {
   "property": "C24",
   "status": "partial",
   "theorems": [
    "Verif.C24_breaker_lossless_partial",
    "Verif.C24_refuted_all",
    "Verif.C24_refuted_invalid_utf8"
   ],
   "note": "proved for valid UTF-8, and violated by every other text (C24_refuted_all): invalid bytes come back as U+FFFD"
  },
  {
   "property": "C25",
   "status": "proved",
   "theorems": [
    "Verif.C25_width_is_sum",
    "Verif.C25_width_additive",
    "Verif.C25_drawn_width",
    "Verif.C25_kerned",
    "Verif.C25_call"
   ],
   "note": "exact arithmetic instead of float64; C25_kerned: with kerning the advances are added; C25_call: for calls of MeasureTextWidth on a value with a font in use"
  },
  {
   "property": "C26",
   "status": "proved",
   "theorems": [
    "Verif.C26_drawn_glyphs"
   ],
   "note": "with any kerning and text rise override"
  },
  {
   "property": "C27",
   "status": "partial",
   "theorems": [
    "Verif.C27_to_unicode_partial",
    "Verif.C27_refuted_all",
    "Verif.C27_refuted_shared_glyph",
    "Verif.C27_refuted_supplementary"
   ],
   "note": "proved for distinct glyphs and the basic plane; violated by every other character (C27_refuted_all)"
  },
  {
   "property": "C28",
   "status": "partial",
   "theorems": [
    "Verif.C28_made",
    "Verif.C28_subset_partial",
    "Verif.C28_shared_partial",
    "Verif.C28_refuted_shared_glyph",
    "Verif.C28_refuted_all"
   ],
   "note": "proved for used glyphs below the first one that is repeated; in every file in which two characters share a glyph all glyphs with a greater number have an empty outline (C28_refuted_all)"
  },
  {
   "property": "C29",
   "status": "partial",
   "theorems": [
    "Verif.C29_parts_partial",
    "Verif.C29_refuted_nested",
    "Verif.C29_refuted_all"
   ],
   "note": "proved when composite parts are used themselves; violated for other nested composites: in every file a glyph that is only a part of a part has an empty outline (C29_refuted_all)"
  },
  {
   "property": "C30",
   "status": "partial",
   "theorems": [
    "Verif.C30_format4",
    "Verif.C30_format12_partial",
    "Verif.C30_refuted_last_of_group"
   ],
   "note": "format 4 proved for well-formed tables; format 12 misses the last character of every group; in terms of the font file: C77"
  },
  {
   "property": "C31",
   "status": "proved",
   "theorems": [
    "Verif.C31_width_array"
   ],
   "note": ""
  },
  {
   "property": "C32",
   "status": "proved",
   "theorems": [
    "Verif.C32_table_directory"
   ],
   "note": "file below 4 GiB; checksums of copied tables are those of the source font"
  },
  {
   "property": "C33",
   "status": "partial",
   "theorems": [
    "Verif.C33_stream_decrypts",
    "Verif.C33_no_stream_partial",
    "Verif.C33_refuted_all",
    "Verif.C33_refuted_word_stream",
    "Verif.C33_rc4_vectors"
   ],
   "note": "MD5 abstract; RC4 checked against published results; proved for all stream objects; every object with the word stream but not the word endstream makes saving crash (C33_refuted_all)"
  },
  {
   "property": "C34",
   "status": "partial",
   "theorems": [
    "Verif.C34_length_kept_partial",
    "Verif.C34_refuted_all",
    "Verif.C34_refuted_line_end"
   ],
   "note": "violated for streams that begin or end with a line end, by every stream with two or more such bytes (C34_refuted_all)"
  },
  {
   "property": "C35",
   "status": "partial",
   "theorems": [
    "Verif.C35_password_entries_partial",
    "Verif.C35_low_byte",
    "Verif.C35_refuted_all",
    "Verif.C35_refuted_high_bits"
   ],
   "note": "proved for permission words below 256; violated by every permission word with one of the bits 8 to 31 (C35_refuted_all), whatever the hash function: the key is made from other bytes than the written ones"
  },
  {
   "property": "C36",
   "status": "proved",
   "theorems": [
    "Verif.C36_escape_round_trip",
    "Verif.C36_dictionary"
   ],
   "note": "all byte strings"
  },
  {
   "property": "C37",
   "status": "proved",
   "theorems": [
    "Verif.C37_unit_conversion"
   ],
   "note": "all integers n, all u > 0"
  },
  {
   "property": "C38",
   "status": "partial",
   "theorems": [
    "Verif.C38_after_open_partial",
    "Verif.C38_refuted",
    "Verif.C38_refuted_all"
   ],
   "note": "holds directly after opening when the rectangles stand in the pages; violated after RemovePage, and by every well-formed file for each page whose rectangle is an object of its own: it is taken to be 841.89 high (C38_refuted_all)"
  },
  {
   "property": "C39",
   "status": "partial",
   "theorems": [
    "Verif.C39_unknown_partial",
    "Verif.C39_refuted_all",
    "Verif.C39_refuted"
   ],
   "note": "holds when the font is unknown; violated by every insertion that fails because of a missing glyph: the text is drawn nevertheless"
  },
  {
   "property": "C40",
   "status": "partial",
   "theorems": [
    "Verif.C40_setFont",
    "Verif.C40_textrise",
    "Verif.C40_kern",
    "Verif.C40_insert",
    "Verif.C40_addFont",
    "Verif.C40_refuted_measure",
    "Verif.C40_refuted_measure_all",
    "Verif.C40_refuted_wrap"
   ],
   "note": "proved for all calls but MeasureTextWidth and InsertWrapText with a text breaker, which crash in every state whose font is unknown"
  },
  {
   "property": "C41",
   "status": "partial",
   "theorems": [
    "Verif.C41_small_numbers_partial",
    "Verif.C41_refuted_large_numbers"
   ],
   "note": "violated for every value from 32768 on"
  },
  {
   "property": "C42",
   "status": "partial",
   "theorems": [
    "Verif.C42_rgb_planes_partial",
    "Verif.C42_refuted_gray",
    "Verif.C42_refuted_gray_same_object"
   ],
   "note": "RGB with alpha proved (dimensions and chunks below 32768); gray with alpha violated"
  },
  {
   "property": "C43",
   "status": "partial",
   "theorems": [
    "Verif.C43_colour_set_partial",
    "Verif.C43_refuted_all",
    "Verif.C43_refuted_sum"
   ],
   "note": "violated for all colours whose components add up to 256 or 512, whatever the text (C43_refuted_all)"
  },
  {
   "property": "C44",
   "status": "partial",
   "theorems": [
    "Verif.C44_refuted_fails",
    "Verif.C44_refuted_same",
    "Verif.C44_refuted_kept",
    "Verif.C82_open"
   ],
   "note": "The code violates the property: whatever the value held before, all its objects, rows, contents and images are still there after opening another document (C44_refuted_kept, for every state); only the names of fonts and the cache of images are forgotten (C82_open)"
  },
  {
   "property": "C45",
   "status": "proved",
   "theorems": [
    "Verif.C45_new",
    "Verif.C45_unknown",
    "Verif.C45_text",
    "Verif.C45_img"
   ],
   "note": ""
  },
  {
   "property": "C46",
   "status": "partial",
   "theorems": [
    "Verif.C46_refuted_all",
    "Verif.C46_refuted_inherited",
    "Verif.C46_refuted_cycle",
    "Verif.C46_refuted_kids"
   ],
   "note": "violated: crashes on every well-formed file with a page that inherits its MediaBox (C46_refuted_all) and missing kids, does not end on a cyclic tree"
  },
  {
   "property": "C47",
   "status": "proved",
   "theorems": [
    "Verif.C47_pages_in_document_order"
   ],
   "note": "trees of any shape and depth"
  },
  {
   "property": "C48",
   "status": "partial",
   "theorems": [
    "Verif.C48_layout_partial",
    "Verif.C48_refuted"
   ],
   "note": "The code violates the property as stated: C48_refuted (an array read with and without a blank after the bracket). C48_layout_partial: layouts that put white space before words in the same places are read alike, whatever the amount and kind of the white space elsewhere."
  },
  {
   "property": "C49",
   "status": "partial",
   "theorems": [
    "Verif.C49_refuted",
    "Verif.C49_refuted_all",
    "Verif.C49_unshared_partial"
   ],
   "note": "The code violates the property: C49_refuted is a document with a resource object shared by two pages, whose keys are repeated after open and save. In every flat document the step that adds the fonts writes each key of a shared resource object with a font list in place as often as there are pages that share it (C49_refuted_all)."
  },
  {
   "property": "C50",
   "status": "proved",
   "theorems": [
    "Verif.C50_style_letters"
   ],
   "note": ""
  },
  {
   "property": "C51",
   "status": "partial",
   "theorems": [
    "Verif.C51_fonts_seen_partial",
    "Verif.C51_saved_partial"
   ],
   "note": "proved for flat page trees for the whole of Save without encryption; deeper page trees are missing (C17_refuted_deep shows that it fails there)"
  },
  {
   "property": "C52",
   "status": "proved",
   "theorems": [
    "Verif.C52_read_written",
    "Verif.C52_written_read",
    "Verif.C52_write_frame"
   ],
   "note": ""
  },
  {
   "property": "C53",
   "status": "partial",
   "theorems": [
    "Verif.C53_refuted_palette_lost"
   ],
   "note": "violated for every palette image"
  },
  {
   "property": "C54",
   "status": "proved",
   "theorems": [
    "Verif.C54_horizontal",
    "Verif.C54_vertical",
    "Verif.C54_written"
   ],
   "note": "exact arithmetic instead of float64"
  },
  {
   "property": "C55",
   "status": "partial",
   "theorems": [
    "Verif.C55_refuted_all",
    "Verif.C55_refuted_plain_string"
   ],
   "note": "violated: strings outside streams are not encrypted; in every protected file all that stands before the streams is as in the unprotected one (C55_refuted_all)"
  },
  {
   "property": "C56",
   "status": "partial",
   "theorems": [
    "Verif.C56_reading_ends_partial",
    "Verif.C56_refuted_chunk_size"
   ],
   "note": "ends always; crashes on data chunks of 32768 to 65535 bytes"
  },
  {
   "property": "C57",
   "status": "partial",
   "theorems": [
    "Verif.C57_data_kept_partial",
    "Verif.C57_refuted_all",
    "Verif.C57_refuted_empty_chunk"
   ],
   "note": "violated for files with an empty chunk: all data after it is lost (C57_refuted_all)"
  },
  {
   "property": "C58",
   "status": "partial",
   "theorems": [
    "Verif.C58_refuted_black",
    "Verif.C58_refuted_all",
    "Verif.C58_default_partial"
   ],
   "note": "violated for every text: no colour operator is written for black; a text without a colour is set to black"
  },
  {
   "property": "C59",
   "status": "proved",
   "theorems": [
    "Verif.C59_numbers_accurate"
   ],
   "note": "exact rationals instead of float64"
  },
  {
   "property": "C60",
   "status": "proved",
   "theorems": [
    "Verif.C60_borders",
    "Verif.C60_drawn"
   ],
   "note": "horizontal edges are longer by half the line width at both ends"
  },
  {
   "property": "C61",
   "status": "partial",
   "theorems": [
    "Verif.C61_one_of_them",
    "Verif.C61_last_annotated_partial",
    "Verif.C61_refuted_first",
    "Verif.C61_refuted_annotations"
   ],
   "note": "violated: the first version is used unless one has /Annots"
  },
  {
   "property": "C62",
   "status": "partial",
   "theorems": [
    "Verif.C62_refuted_all",
    "Verif.C62_refuted"
   ],
   "note": "violated when no resource dictionary has an /XObject entry: C62_refuted_all says that Save then writes the entry, with every inserted image, into the catalog, for every document (linked in the usual way, in the sense of C83) whose resources are objects of their own"
  },
  {
   "property": "C63",
   "status": "proved",
   "theorems": [
    "Verif.C63_width_is_advance"
   ],
   "note": "integer kerning values of any size instead of int16; the text rise override prints a number"
  },
  {
   "property": "C64",
   "status": "partial",
   "theorems": [
    "Verif.C64_refuted",
    "Verif.C64_fonts_step_partial",
    "Verif.C64_saved_partial"
   ],
   "note": "The code violates the property: C64_refuted is a document with resources in place in one page and by reference in another; the second page loses its fonts."
  },
  {
   "property": "C65",
   "status": "partial",
   "theorems": [
    "Verif.C65_pages_kept_partial"
   ],
   "note": "an added /XObject entry is not excluded; proved for flat page trees and Save without encryption; deeper page trees are missing"
  },
  {
   "property": "C66",
   "status": "partial",
   "theorems": [
    "Verif.C66_others_kept_partial"
   ],
   "note": "proved for flat page trees and Save without encryption; deeper page trees are missing"
  },
  {
   "property": "C67",
   "status": "partial",
   "theorems": [
    "Verif.C67_refuted_all",
    "Verif.C67_refuted_cut",
    "Verif.C67_refuted_streams_matter"
   ],
   "note": "The code violates the property: keywords inside streams cut off objects, make opening fail or crash, or add objects (C67_refuted_streams_matter). C67_refuted_cut: whatever file is opened, no object read has bytes with endobj in them. C67_refuted_all: whatever was opened and called, a saved file with startxref in an object and trailer in none cannot be opened. C04_save_open is what holds."
  },
  {
   "property": "C68",
   "status": "proved",
   "theorems": [
    "Verif.C68_protection",
    "Verif.C68_saved",
    "Verif.C68_entries",
    "Verif.C68_named",
    "Verif.C68_contents"
   ],
   "note": "every value and every run of calls; MD5 abstract (sums of 16 bytes); what C15 to C20, C51, C64 to C66 say about documents without protection carries over to the dictionaries by C68_entries and C68_named and to contents by C68_contents"
  },
  {
   "property": "C69",
   "status": "partial",
   "theorems": [
    "Verif.C69_refuted_all",
    "Verif.C69_refuted_twice",
    "Verif.C69_refuted_clear"
   ],
   "note": "The code violates the property: build encrypts the objects it shares with the receiver, so that a second Save enciphers them again, which with RC4 gives back the plain streams: the second file has them in the clear (C69_refuted_all: for every protected value, each object that the second Save would otherwise leave alone). For the first Save see C68."
  },
  {
   "property": "C70",
   "status": "partial",
   "theorems": [
    "Verif.C70_page_partial",
    "Verif.C70_text",
    "Verif.C70_image",
    "Verif.C70_style",
    "Verif.C15_insert",
    "Verif.C15_insertImg"
   ],
   "note": "C70_text, C70_image and C70_style say what a viewer (Spec/Paint: a reader of content streams with graphics state) paints for one content; C70_page_partial puts them together for a saved page of a flat document without protection. Missing: texts with characters the font does not have, fonts with 0 units per em or a negative underline thickness, rise overrides that do not print numbers, several content streams, other page trees; which kerning and rise apply is part of the statement"
  },
  {
   "property": "C71",
   "status": "partial",
   "theorems": [
    "Verif.C71_refuted_all",
    "Verif.C71_refuted"
   ],
   "note": "The code violates the property: the inserted content follows the page's own without q and Q around it. C71_refuted_all: on every page whose own content leaves turned, slanted or shifted coordinates every image is elsewhere, and clipping paths stay. If the page's own content restores the coordinates, C70_page_partial gives the place"
  },
  {
   "property": "C72",
   "status": "partial",
   "theorems": [
    "Verif.C72_refuted_all",
    "Verif.C72_refuted_second_page",
    "Verif.C72_first_page_partial"
   ],
   "note": "The code violates the property: the style is always written on page 1 (content_line_style.go:28-30). C72_refuted_all: on all other pages, for every file and all calls, borders have the style the page's own content leaves"
  },
  {
   "property": "C73",
   "status": "partial",
   "theorems": [
    "Verif.C73_refuted_all",
    "Verif.C73_refuted_rise",
    "Verif.C73_rise_partial",
    "Verif.C82_call"
   ],
   "note": "The code violates the property: the rise is never set back to 0, so that every text after a raised one is raised (C73_refuted_all). That an override is stored at the named font only is C82_call"
  },
  {
   "property": "C74",
   "status": "partial",
   "theorems": [
    "Verif.C74_alpha_partial",
    "Verif.C74_plain_partial",
    "Verif.C74_jpeg",
    "Verif.C74_insertImg",
    "Verif.C74_saved_partial",
    "Verif.C74_refuted_format"
   ],
   "note": "Proved with an independent reader of objects (Spec/Object) for JPEG, for gray and RGB PNG without alpha and for RGB PNG with alpha, 8 bits, with dimensions and chunks below 32768 and without empty chunks, given that decompression undoes compression. Violated: gray with alpha (C42), palettes (C53), large sizes (C41), empty chunks (C57), other formats"
  },
  {
   "property": "C75",
   "status": "partial",
   "theorems": [
    "Verif.C75_saved_partial",
    "Verif.C75_run_partial",
    "Verif.C75_refuted_name",
    "Verif.C75_refuted_name_all",
    "Verif.C75_refuted_twice"
   ],
   "note": "Proved with an independent reader of objects (Spec/Object) for the first Save of flat documents without protection and names of fonts without delimiters. Violated: names with delimiters (C75_refuted_name_all: every name that ends with brackets), and every later save (the buffers of the fonts are appended to)"
  },
  {
   "property": "C76",
   "status": "partial",
   "theorems": [
    "Verif.C76_saved_partial",
    "Verif.C76_protected_partial",
    "Verif.C76_refuted"
   ],
   "note": "Proved for documents with a flat page tree whose pages meet CanSave, after any calls, with fonts whose tables agree with each other. With protection: exactly if every object with the word stream has endstream after it. Violated: an unedited document cannot be saved if no page has resources, if a font has a name like /Helv or /A_B1, if a font is written in the list of fonts, or if the resources have exactly three words"
  },
  {
   "property": "C77",
   "status": "partial",
   "theorems": [
    "Verif.C77_read",
    "Verif.C77_accepted",
    "Verif.C77_glyph",
    "Verif.C77_glyph12_partial",
    "Verif.C77_outline",
    "Verif.C77_embedded_partial",
    "Verif.C77_crash_partial",
    "Verif.C77_refuted_glyph12",
    "Verif.C77_refuted_glyph12_all",
    "Verif.C77_refuted_crash",
    "Verif.C77_refuted_missing"
   ],
   "note": "Proved against positions of the OpenType specification (Spec/TtfFile): all values read, acceptance of every sound file, characters up to U+FFFF, outlines. Violated: the last character of every format 12 group of every file has no glyph (C77_refuted_glyph12_all), a file with no horizontal metrics but with glyphs crashes AddFont (the only crash), and a missing hmtx table is not noticed. Embedding has the limits of C28 and C29"
  },
  {
   "property": "C78",
   "status": "partial",
   "theorems": [
    "Verif.C78_read_partial",
    "Verif.C78_rewritten_partial",
    "Verif.C78_entry",
    "Verif.C78_no_entry",
    "Verif.C78_refuted_blanks",
    "Verif.C78_refuted_slash",
    "Verif.C78_refuted_comment",
    "Verif.C78_refuted_paren"
   ],
   "note": "proved for simple notation against an independent lexer and reader of objects; outside of it the statement is false, as the refutations show; other notations (other white space, bytes above 126, escapes before special characters) are not covered"
  },
  {
   "property": "C79",
   "status": "partial",
   "theorems": [
    "Verif.C79_pages_partial",
    "Verif.C79_refuted_indirect",
    "Verif.C79_refuted_stream"
   ],
   "note": "Proved against an independent reader of objects and page trees for simply written dictionaries (C78). Violated: an indirect array of kids, the word stream in a string"
  },
  {
   "property": "C80",
   "status": "partial",
   "theorems": [
    "Verif.C80_remove_partial",
    "Verif.C80_duplicate_partial",
    "Verif.C80_duplicate_succeeds_partial",
    "Verif.C80_history_partial",
    "Verif.C80_refuted_parent",
    "Verif.C80_refuted_all"
   ],
   "note": "Proved against an independent reader of objects and page trees for simply written dictionaries (C78). Violated: in trees with more than one level, pages keep the old /Parent although they are moved below the root, in every such tree (C80_refuted_all)"
  },
  {
   "property": "C81",
   "status": "partial",
   "theorems": [
    "Verif.C81_objects_partial",
    "Verif.C81_open_partial",
    "Verif.C81_openFrom_partial",
    "Verif.C81_refuted_update",
    "Verif.C81_refuted_forms"
   ],
   "note": "every file with one table, any number of subsections and rows; the description of the file (Spec/File) is independent of the parser. Assumed: the first line of an object has single white-space bytes, no object has endobj inside, and no text before the table or in the trailer looks like trailer, startxref or a row (C67 shows that these matter); dictionaries are simply written (C78); the number syntax of the standard is accepted by ParseFloat. Refuted: a file with an update is opened in its old version (both versions of the object are kept, the first is used); objects of generation 1 or with two blanks in the first line make opening fail. Inherited /MediaBox: see C46"
  },
  {
   "property": "C82",
   "status": "proved",
   "theorems": [
    "Verif.C82_call",
    "Verif.C82_session",
    "Verif.C82_outcome",
    "Verif.C82_contents",
    "Verif.C82_open"
   ],
   "note": "for every sequence of calls with any outcomes, from every state whose font map is in order (which opening establishes: C82_open); the session (Session.after) is a specification of its own over names"
  },
  {
   "property": "C83",
   "status": "partial",
   "theorems": [
    "Verif.C83_saved_partial",
    "Verif.C83_content_partial",
    "Verif.C83_refuted_images",
    "Verif.C83_refuted_mixed"
   ],
   "note": "proved for page trees of any shape and every iteration order, for documents linked in the usual way (Spec/StdSave): entries simply written, images in place, resources of all pages either in place or not, content streams of their own. The code violates it for images in a dictionary of their own (they are lost: C83_refuted_images) and for resources partly in place (the page is no longer a dictionary: C83_refuted_mixed). That fonts and images reach every page is the subject of C17, C19, C20 and C70; in deeper trees they do not"
  },
  {
   "property": "C84",
   "status": "partial",
   "theorems": [
    "Verif.C84_run_partial",
    "Verif.C84_call_partial",
    "Verif.C84_calls_partial",
    "Verif.C84_save_partial",
    "Verif.C84_saved_partial"
   ],
   "note": "proved from the bytes of the opened file to the bytes of the saved file, for files in the sense of Spec/File whose document is linked in the usual way (Spec/StdSave) with one content stream per page of its own; not covered: a Save between the calls (C84_saved_partial says what the receiver holds after one, and C22_refuted_all that contents are drawn again), removing the last page, protection (see C93), incremental updates and object streams. RemoveOtherPages keeps the page after the one named (C09), and that is what Call.edit says. Where the code violates the property for documents of other forms: C75, C79, C81, C83"
  },
  {
   "property": "C85",
   "status": "partial",
   "theorems": [
    "Verif.C85_file_partial",
    "Verif.C85_refuted_all",
    "Verif.C85_refuted_utf16_all",
    "Verif.C85_refuted_date",
    "Verif.C85_refuted_utf16"
   ],
   "note": "proved for every state, with and without protection; assumed: the file is shorter than 10^10 bytes, the information has no creation date and only characters of the first plane. Violated: a creation date closes the dictionary of the information once too often, so that the trailer of every dated document cannot be read (C85_refuted_all); every text with a character beyond the first plane is not UTF-16 (C85_refuted_utf16_all)"
  },
  {
   "property": "C86",
   "status": "partial",
   "theorems": [
    "Verif.C86_session_partial",
    "Verif.C86_total",
    "Verif.C86_refuted_empty_all",
    "Verif.C86_refuted_twice_all",
    "Verif.C86_refuted_empty",
    "Verif.C86_refuted_twice"
   ],
   "note": "proved for every sequence of calls that puts no texts and no images on a page, without protection (with one: C92), if something is drawn on each page; that writing succeeds is proved for sessions without fonts. Violated: the object of every page on which nothing is drawn is malformed (C86_refuted_empty_all), and every document that is written twice is malformed the second time (C86_refuted_twice_all). What is drawn before the first page is on no page"
  },
  {
   "property": "C87",
   "status": "partial",
   "theorems": [
    "Verif.C87_session_partial",
    "Verif.C87_position",
    "Verif.C87_refuted_advance",
    "Verif.C87_refuted_cell_all",
    "Verif.C87_refuted_cell",
    "Verif.C87_refuted_kern",
    "Verif.C87_refuted_measure"
   ],
   "note": "proved for every session of successful calls without protection (with one: C92), if something is on each page and the fonts have a size and underlines that are not negative; a text that is written with the same settings as the one before continues that. Violated: after two texts that were joined the position is too far to the right, every cell that directly follows a text loses its rectangle and edges (C87_refuted_cell_all), overriding the kerning of a font added without kerning has no effect, MeasureTextWidth always crashes"
  },
  {
   "property": "C88",
   "status": "partial",
   "theorems": [
    "Verif.C88_session_partial",
    "Verif.C88_text",
    "Verif.C88_picture",
    "Verif.C88_refuted_palette",
    "Verif.C88_refuted_mask_all",
    "Verif.C88_refuted_mask",
    "Verif.C88_refuted_font",
    "Verif.C88_refuted_level"
   ],
   "note": "proved for every session of successful calls without protection (with one: C92), if no font is added with the style underline, for images without alpha and palette; the object of an image is the one C74 describes. Violated: documents with an image that has a palette cannot be written, /SMask of every image with alpha names the number one below that of its mask (C88_refuted_mask_all; it can be the image itself, C88_refuted_mask), a font that was added underlined before makes the texts in the plain one use the font F1, levels above 9 change nothing"
  },
  {
   "property": "C89",
   "status": "proved",
   "theorems": [
    "Verif.C89_session",
    "Verif.C89_text",
    "Verif.C87_position"
   ],
   "note": "for documents without protection; after a text that is added to the one before the pen has moved by the width of both (C87_refuted_advance), which the specification of the pen says"
  },
  {
   "property": "C90",
   "status": "partial",
   "theorems": [
    "Verif.C90_read_partial",
    "Verif.C90_none",
    "Verif.C90_pair",
    "Verif.C90_refuted_tables",
    "Verif.C90_refuted_format"
   ],
   "note": "proved for tables with one subtable of format 0 that is complete; how texts are made from the distances is C31, C38 and C60. Violated: of several subtables only the last one counts, and a subtable of format 2 is read as pairs (the wrong bits of the coverage are tested)"
  },
  {
   "property": "C91",
   "status": "partial",
   "theorems": [
    "Verif.C91_open_partial",
    "Verif.C91_refuted_inherited"
   ],
   "note": "proved for documents without information and password whose pages all have a size of their own and something on them, if no object has keywords of the file structure in it. Violated: a page with the size of the document has no /MediaBox of its own, and Open dereferences a nil pointer"
  },
  {
   "property": "C92",
   "status": "partial",
   "theorems": [
    "Verif.C92_session_partial",
    "Verif.C92_refuted_strings",
    "Verif.C92_refuted_strings_all"
   ],
   "note": "proved for every session of successful calls with permissions in the lowest eight bits (all permissions that are defined), under the conditions of C88; /Encrypt is found in trailers without /Info. Violated: strings in the dictionaries of fonts are not enciphered, so readers find another ordering than Identity; so it is for every font of every protected document (C92_refuted_strings_all)"
  },
  {
   "property": "C93",
   "status": "partial",
   "theorems": [
    "Verif.C93_run_partial",
    "Verif.C68_saved",
    "Verif.C34_refuted_line_end"
   ],
   "note": "proved under the conditions of C84, with permissions in the lowest eight bits; streams are deciphered up to the line ends around them, which protection drops while /Length still counts them (C34); strings stay in the clear (C55)"
  },
  {
   "property": "C94",
   "status": "partial",
   "theorems": [
    "Verif.C94_run_partial",
    "Verif.C94_protected_partial",
    "Verif.C71_refuted"
   ],
   "note": "proved under the conditions of C84 for texts whose characters are in the font, fonts with units per em and underlines that are not negative, and overrides that print numbers; the calls make the contents as C45 says. Violated: the place is in the coordinates the page's own content leaves (C71), and page 1 gets the line style that opening adds (C72)"
  },
  {
   "property": "C95",
   "status": "partial",
   "theorems": [
    "Verif.C95_refuted",
    "Verif.C95_refuted_dropped",
    "Verif.C95_witness"
   ],
   "note": "violated, and proved so: opening looks for /Root only (pdf_parse.go:117-148), so that a protected file is opened without an error; for every such file and all calls that do not ask for protection the saved trailer has no /Encrypt while the streams stay enciphered and drawings are put behind them in the clear (C95_refuted_dropped); C95_witness shows that the file of C95_refuted is protected with a password and what its contents are"
  },
  {
   "property": "C96",
   "status": "partial",
   "theorems": [
    "Verif.C96_top_partial",
    "Verif.C96_refuted_blank",
    "Verif.C96_refuted_middle",
    "Verif.C96_refuted_bottom",
    "Verif.C96_refuted_gap"
   ],
   "note": "the place is proved for texts aligned to the top whose first token fits. Violated, for every call of the kind: a first token that is too wide is preceded by an empty line, text aligned to the middle is a tenth of the font size too high, of text aligned to the bottom all lines but the first are below the place of a single line; a blank that fits neither behind the word before it nor before the one after it makes an empty line"
  },
  {
   "property": "C97",
   "status": "partial",
   "theorems": [
    "Verif.C97_refuted_outside",
    "Verif.C97_refuted_accepted",
    "Verif.C97_refuted_bare_all",
    "Verif.C97_refuted_bare",
    "Verif.C97_refuted_shared_all",
    "Verif.C97_refuted_shared",
    "Verif.C15_saved_partial"
   ],
   "note": "holds for pages with a content stream of their own (C15, C84, C94). Violated: insertions on pages the document does not have are dropped without an error (for every document), so are insertions on a page without /Contents (also proved for every document: saving gives the same as without them); of insertions on pages that share their content only those on the last page remain, and they are on all of them (proved for every document)"
  },
  {
   "property": "C98",
   "status": "partial",
   "theorems": [
    "Verif.C98_refuted_all",
    "Verif.C98_refuted"
   ],
   "note": "violated, and proved so for every flat document: of a page that is drawn on, the encoded bytes are kept and the filter is dropped; because opening draws a line style on page 1 (C72), opening and saving is enough"
  },
  {
   "property": "C99",
   "status": "partial",
   "theorems": [
    "Verif.C99_refuted_all",
    "Verif.C99_refuted"
   ],
   "note": "violated, and proved so for every flat document and all calls: an object that no page refers to any more is written to the saved file as it was, with a row in the cross-reference table"
  }
 ]
}