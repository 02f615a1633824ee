#!/usr/bin/env python3
# Writes /verif/properties.jsonl. Kept in the repository so that the list is easy to edit.
import json
P = []
def p(id, title, statement, quantifier, why, *anchors):
    P.append(dict(id=id, title=title, statement=statement, quantifier=quantifier,
                  why_tests_cant=why, anchors=list(anchors)))

p("C01", "Saved cross-reference rows point at their objects",
  "In the bytes written by SaveTo, every cross-reference row marked in-use for object number k carries a byte offset at which the text of 'k 0 obj' followed by that object's data and 'endobj' starts; every object written has such a row.",
  "every document state (any number of objects, any object bytes, any order, any distinct ids), with and without protection",
  "The offsets depend on the length of every earlier object; a test fixes one document.",
  "pdft.go:PDFt.toStream", "pdft.go:PDFt.xref", "pdft.go:PDFt.SaveTo")
p("C02", "Cross-reference table is well formed",
  "The table written by SaveTo has one subsection '0 N' with exactly N rows, each exactly 20 bytes; row 0 is free with generation 65535; the free rows form one linked list that starts at row 0, visits every free row once in increasing order and ends with 0.",
  "every set of used object numbers and every table size, while the file is shorter than 10^10 bytes",
  "Which numbers are unused depends on the input document and on the number of fonts added; every gap pattern must chain correctly.",
  "pdft.go:PDFt.xref", "pdft.go:PDFt.formatXrefline")
p("C03", "Trailer and startxref agree with the table",
  "In the bytes written by SaveTo, the number after 'startxref' is the byte offset where the cross-reference section begins, /Size equals the number of rows, /Root names the root object of the opened document, and /Encrypt is present exactly when protection was set and names the encryption object.",
  "every document state, with and without protection",
  "Offsets and sizes vary with all content before them.",
  "pdft.go:PDFt.xref", "pdft.go:PDFt.toStream")
p("C04", "Save then open is the identity on objects",
  "Opening the bytes written by SaveTo yields the same object numbers with the same data (up to leading and trailing white space), and the same root, so the number and order of pages are unchanged.",
  "every document whose object bodies do not themselves contain the structural keywords the reader searches for",
  "A round trip has to hold for arbitrary object bytes, sizes and numbers of objects.",
  "pdft.go:PDFt.toStream", "pdf_parse.go:PDFParse", "pdf_parse.go:parseXref", "pdf_parse.go:parseTrailer", "pdf_parse.go:parseObjOnlyKeywordN", "pdf_obj_data.go:PDFObjData.parse", "xref_data.go:XrefData.parse")
p("C05", "RemovePage removes exactly the requested page",
  "After RemovePage(k) with 1 <= k <= GetNumberOfPage() returns nil, the document has one page fewer, page k is gone and every other page is still there in the same order.",
  "every document with a readable page tree (flat or nested, any number of pages) and every k in range",
  "Must hold for each page count, position and tree shape; the tests use one two-page file.",
  "pdft.go:PDFt.RemovePage", "pdft.go:PDFt.setPages", "pdf_data.go:PDFData.getPageObjIDs", "pdft.go:PDFt.GetNumberOfPage")
p("C06", "DuplicatePageAfter inserts one copy at the requested place",
  "After DuplicatePageAfter(t, p) returns nil the document has exactly one page more: for 0 <= p the copy of page t directly follows the page at zero-based index p, for p < 0 indices count from the end as in Python (-1 is the last page); all other pages keep their order.",
  "every document with a readable page tree, every source page in range, every position in [-n, n-1]",
  "Index arithmetic for negative and boundary positions over all page counts.",
  "pdft.go:PDFt.DuplicatePageAfter", "pdft.go:PDFt.setPages")
p("C07", "RemoveOtherPages keeps exactly the requested page",
  "After RemoveOtherPages(k) with 1 <= k <= number of pages returns nil, the document has exactly one page and it is the page that was number k.",
  "every document and every k in range",
  "Every (page count, k) pair; a single-file test can pass by accident.",
  "pdft.go:PDFt.RemoveOtherPages")
p("C08", "Out-of-range page numbers are rejected without effect",
  "RemovePage, RemoveOtherPages and DuplicatePageAfter called with a page number that is not between 1 and the number of pages return an error, do not panic, and leave the document unchanged.",
  "every document and every integer page number",
  "All integers, including zero and negatives.",
  "pdft.go:PDFt.RemovePage", "pdft.go:PDFt.RemoveOtherPages", "pdft.go:PDFt.DuplicatePageAfter")
p("C09", "Any history of page operations equals list editing",
  "For any sequence of RemovePage and DuplicatePageAfter calls that all return nil, the resulting page list equals the one obtained by performing the same removals and insertions on a plain list of pages; GetNumberOfPage is its length, and the page-tree root's /Count equals the number of its /Kids.",
  "every finite sequence of calls with any arguments, from every well-formed opened document",
  "Unbounded histories; each call re-reads the tree the previous one rewrote.",
  "pdft.go:PDFt.RemovePage", "pdft.go:PDFt.DuplicatePageAfter", "pdft.go:PDFt.setPages", "pdf_data.go:PDFData.getPageObjIDs", "pdf_obj_data.go:PDFObjData.setProperties")
p("C10", "Page operations do not touch unrelated data",
  "RemovePage and DuplicatePageAfter leave every existing object other than the page-tree root byte-for-byte unchanged, and in the page-tree root every entry other than /Count and /Kids keeps its value and position.",
  "every document and every call",
  "A frame condition over all other objects.",
  "pdft.go:PDFt.setPages", "pdf_obj_data.go:PDFObjData.setProperties", "pdf_obj_property_data.go:readProperties")
p("C11", "A duplicated page is independent of its source",
  "After DuplicatePageAfter the copy has its own page object and its own content stream object, both with object numbers not used before, initially equal in content to the source; text inserted on the copy never shows up on the source and vice versa.",
  "every document, every source page",
  "Aliasing between pages can only be excluded by reasoning about all later writes.",
  "pdft.go:PDFt.DuplicatePageAfter", "pdf_data.go:PDFData.putNewObject", "pdf_data.go:PDFData.injectContentToPDF")
p("C12", "New objects always get unused numbers",
  "Every object that Save or an editing call adds (page copies, masks, the five font objects of each font, images, the encryption dictionary) gets a number that no other object of the output has, so if the opened document's numbers are distinct so are those of the output.",
  "every document, every number of fonts and images, every iteration order of the font map, every call history",
  "Depends on the maximum id and on counts; map iteration order is random in Go.",
  "pdf_data.go:PDFData.putNewObject", "pdf_data.go:PDFData.maxID", "pdft.go:PDFt.build", "pdf_font_data.go:PDFFontData.build", "pdft.go:PDFt.toStream")
p("C13", "Rewriting a dictionary loses nothing",
  "Reading an object's dictionary entries and writing them back gives an object whose entries read back identically (same keys, same values, same order).",
  "every object body (any bytes)",
  "The reader is a hand-written state machine over arbitrary nested text.",
  "pdf_obj_property_data.go:readProperties", "pdf_obj_property_data.go:parseProps.loop", "pdf_obj_data.go:PDFObjData.setProperties")
p("C14", "References survive writing and reading",
  "An indirect reference or an array of indirect references written into a property is read back as the same list of object numbers.",
  "every list of object numbers representable in int64, of any length",
  "All lists of all lengths.",
  "pdf_obj_property_data.go:PDFObjPropertyData.setAsDictionary", "pdf_obj_property_data.go:PDFObjPropertyData.setAsDictionaryArr", "pdf_obj_property_data.go:readObjIDFromDictionary", "pdf_obj_property_data.go:readObjIDFromDictionaryArr")
p("C15", "Inserted content lands on its page, after the existing content, in call order",
  "After Save, the content stream of page k is the page's previous (decoded) content followed by exactly the drawing operators of the Insert/InsertImg calls made for page k, in call order; a page that received no call keeps its content object byte-for-byte.",
  "every document in which no two pages share a content object, every sequence of insertion calls with any page numbers",
  "Interleavings of calls for many pages.",
  "pdf_data.go:PDFData.injectContentToPDF", "pdft.go:PDFt.Insert", "pdft.go:PDFt.InsertImg")
p("C16", "Rewritten content streams declare their true length",
  "Every content stream object rewritten by Save carries a /Length equal to the number of bytes between 'stream' and 'endstream', and reading the stream back with that length returns exactly the bytes written.",
  "every stream content and every inserted content",
  "Arbitrary stream bytes, including ones that begin or end with white space.",
  "pdf_data.go:PDFData.injectContentToPDF", "pdf_data.go:extractStream", "pdf_data.go:streamLength")
p("C17", "Added fonts get fresh, distinct resource names",
  "The resource name under which Save registers each added font differs from every font name already present in any page's resources and from the names of the other added fonts, and the name written in the page content is the registered one.",
  "every set of existing font names the program accepts, every set of added fonts, every iteration order of the font map",
  "Go map iteration order is random and differs between the loops.",
  "pdf_data.go:PDFData.injectFontsToPDF", "pdf_data.go:findMaxFontIndex", "crawl_result_font.go:crawlResultFonts.maxFontIndex", "crawl_result_font.go:crawlResultFonts.append")
p("C18", "Fonts already used by a page keep their names",
  "After Save every font resource entry that existed before is still present under the same name and refers to the same object.",
  "every font resource dictionary of the opened document",
  "All possible resource names, not only F1, F2.",
  "crawl_result_font.go:splitFont", "crawl_result_font.go:crawlResultFonts.parse", "crawl_result_font.go:crawlResultFonts.String", "pdf_data.go:PDFData.injectFontsToPDF")
p("C19", "Images already used by a page keep their names",
  "After Save every XObject resource entry that existed before is still present under the same name and refers to the same object.",
  "every XObject resource dictionary of the opened document",
  "All possible resource names and orders.",
  "crawl_result_x_object.go:crawlResultXObjects.parse", "crawl_result_x_object.go:crawlResultXObjects.String", "pdf_data.go:PDFData.injectImgsToPDF")
p("C20", "Inserted images get fresh, distinct resource names",
  "The resource name given to each inserted image differs from every existing XObject name and from the other inserted images, and each inserted image is registered under the name used by its drawing operator.",
  "every XObject resource dictionary, every number of inserted images",
  "Depends on the order and numbering of existing names.",
  "pdf_data.go:PDFData.injectImgsToPDF", "content_img_base64.go:contentImgBase64.toSteram")
p("C21", "InsertImgWithCache stores equal images once",
  "Calling InsertImgWithCache any number of times, the number of stored image objects equals the number of distinct images, each call adds exactly one drawing operation, and every operation refers to the object holding its own image.",
  "every sequence of images and pages, for any collision-free digest",
  "Arbitrary sequences with repetitions.",
  "pdft.go:PDFt.InsertImgWithCache")
p("C22", "Saving twice gives the same document",
  "Calling SaveTo twice in a row without edits in between writes the same bytes twice.",
  "every document state",
  "Hidden state shared between calls (buffers, aliased slices).",
  "pdft.go:PDFt.SaveTo", "pdft.go:PDFt.build", "pdf_font_data.go:PDFFontData.build", "minigopdf/subset_font_obj.go:SubsetFontObj.Build", "minigopdf/unicode_map.go:UnicodeMap.Build")
p("C23", "Wrapping neither loses nor reorders text and respects the width",
  "InsertWrapText draws lines whose untrimmed texts concatenate to the concatenation of the tokens, top to bottom; a line made of several tokens is never wider than the box; a new line begins only where the next token does not fit; consecutive lines are 1.2 font sizes apart.",
  "every token list, every width function, every box width",
  "All texts and widths.",
  "pdft.go:PDFt.InsertWrapText")
p("C24", "The basic text breaker is lossless",
  "Concatenating the tokens returned by the basic text breaker gives back the text; every token is empty, a single space, or free of spaces.",
  "every text",
  "All strings.",
  "textbreak/basic_textbreak.go:BasicTextbreak.BreakTextToToken")
p("C25", "Measured width is the sum of glyph widths",
  "Without kerning, MeasureTextWidth of a text equals the sum of its characters' advance widths scaled by the font size, hence is additive under concatenation; and the same width is used when the text is drawn.",
  "every font, every text",
  "All texts.",
  "pdft.go:PDFt.MeasureTextWidth", "minigopdf/cache_content_text.go:createContent", "minigopdf/subset_font_obj.go:SubsetFontObj.GlyphIndexToPdfWidth")
p("C26", "Drawn text encodes the right glyphs",
  "The hexadecimal string drawn for a text decodes (two bytes per glyph) to exactly the glyph numbers of its characters, in order.",
  "every font with glyph numbers below 65536, every text whose characters the font accepts",
  "All texts.",
  "minigopdf/cache_content_text.go:createContent")
p("C27", "Extracting text from the output gives the inserted characters",
  "For every character c inserted with a font, the ToUnicode map of the output font maps the glyph drawn for c back to c.",
  "every set of inserted characters",
  "Shared glyphs and characters beyond the basic plane.",
  "minigopdf/unicode_map.go:UnicodeMap.pdfToUnicodeMap", "minigopdf/map_of_character_To_glyph_index.go:MapOfCharacterToGlyphIndex")
p("C28", "The embedded font contains the outline of every used glyph",
  "In the embedded subset font, the location table gives for each used glyph exactly the outline bytes of the original font, and an empty outline for every other glyph.",
  "every font and every set of used glyphs",
  "All glyph subsets.",
  "minigopdf/pdf_dictionary_obj.go:PdfDictionaryObj.makeGlyfAndLocaTable")
p("C29", "Composite glyphs are embedded with all their parts",
  "If a used glyph is a composite, every glyph it is built from, directly or through other composites, is also embedded.",
  "every font (any nesting of composites) and every set of used glyphs",
  "Nesting depth is unbounded.",
  "minigopdf/pdf_dictionary_obj.go:PdfDictionaryObj.completeGlyphClosure")
p("C30", "Characters map to the glyph the font's character map says",
  "The glyph chosen for a character is the one the font's cmap table (format 4 or 12) assigns to it; a character covered by the table is never reported as missing.",
  "every cmap table and every character",
  "All segments and all code points.",
  "minigopdf/subset_font_obj.go:SubsetFontObj.charCodeToGlyphIndexFormat4", "minigopdf/subset_font_obj.go:SubsetFontObj.charCodeToGlyphIndexFormat12")
p("C31", "The width array agrees with the measured widths",
  "The /W array written for a font lists, for every used glyph, the width that MeasureTextWidth and drawing used for it.",
  "every set of inserted characters",
  "All subsets of glyphs.",
  "minigopdf/cid_font_obj.go:CIDFontObj.Build", "minigopdf/subset_font_obj.go:SubsetFontObj.GlyphIndexToPdfWidth")
p("C32", "The embedded font file's table directory is correct",
  "Each directory record of the embedded font gives the offset, length and checksum of its table; tables start at multiples of four, do not overlap and lie inside the file.",
  "every source font and every glyph subset",
  "Offsets depend on all table lengths.",
  "minigopdf/pdf_dictionary_obj.go:PdfDictionaryObj.makeFont", "minigopdf/buff.go:Buff", "minigopdf/pdf_dictionary_obj.go:CheckSum", "minigopdf/fontmaker/core/table_directory_entry.go:TableDirectoryEntry.PaddedLength")
p("C33", "Encrypted streams decrypt to the original bytes",
  "With protection set, decrypting the stream body of an output object with that object's key returns the body that was written (without the line breaks around it), the part before the stream is unchanged, and objects without streams are unchanged.",
  "every object body, every object number, every key",
  "All keys and all data.",
  "pdf_obj_data.go:PDFObjData.encrypt", "pdf_obj_data.go:rc4Cip", "minigopdf/pdf_protection.go:PDFProtection.Objectkey")
p("C34", "Encryption keeps the declared stream length true",
  "If an object's /Length equals its stream length before encryption it still does after encryption.",
  "every stream object",
  "Depends on the first and last bytes of the stream.",
  "pdf_obj_data.go:PDFObjData.encrypt", "pdf_data.go:PDFData.injectContentToPDF")
p("C35", "Password entries allow the standard checks",
  "The owner entry decrypts, with the key derived from the owner password, to the padded user password; the user entry is the encryption of the padding under the document key; the permissions number in the encryption dictionary is the one hashed into the key, and its low byte is the requested permission set.",
  "every pair of passwords of any length and every permission value",
  "All passwords.",
  "minigopdf/pdf_protection.go:PDFProtection.setProtection", "minigopdf/pdf_protection.go:PDFProtection.generateEncryptionKey", "minigopdf/encryption_obj.go:EncryptionObj.Build")
p("C36", "Encryption strings survive escaping",
  "Reading the escaped /O and /U literal strings with the PDF literal string rules returns the original bytes.",
  "every byte string",
  "All byte strings, including parentheses, backslashes and line breaks.",
  "minigopdf/encryption_obj.go:EncryptionObj.escape")
p("C37", "Font units are converted exactly",
  "Converting n font units to PDF units with u units per em gives 1000*n/u truncated toward zero.",
  "every integer n and every positive u",
  "All integers, including negative metrics.",
  "minigopdf/content_obj.go:convertTTFUnit2PDFUnit")
p("C38", "Coordinates use the height of the page drawn on",
  "Insert and InsertImg on page k place content relative to the height of the page that is number k at the time of the call.",
  "every history of page removals and duplications before the call",
  "Needs documents with mixed page sizes and edited page lists.",
  "pdft.go:PDFt.pageHeight", "pdf_parse.go:parsePageSize")
p("C39", "A failed Insert has no effect",
  "If Insert returns an error the document that is saved later does not contain anything from that call.",
  "every state and every text",
  "Requires comparing all later outputs.",
  "pdft.go:PDFt.Insert", "minigopdf/subset_font_obj.go:SubsetFontObj.AddChars")
p("C40", "Unknown font names are errors, never crashes",
  "SetFont, Insert, TextriseOverride, KernOverride and MeasureTextWidth return ErrFontNameNotFound and change nothing when the (current) font was never added; AddFont with a used name returns ErrAddSameFontName and changes nothing.",
  "every state and every name",
  "All states and names.",
  "pdft.go:PDFt.SetFont", "pdft.go:PDFt.Insert", "pdft.go:PDFt.MeasureTextWidth", "pdft.go:PDFt.AddFont", "pdft.go:PDFt.KernOverride", "pdft.go:PDFt.TextriseOverride")
p("C41", "PNG numbers are read as written",
  "A 32-bit big-endian PNG length or dimension is read as its value for every legal PNG value (below 2^31).",
  "every 32-bit value",
  "2^31 values; test images are small.",
  "minigopdf/image_obj_parse.go:readInt")
p("C42", "PNG alpha separation is lossless",
  "For an 8-bit PNG with alpha, the colour plane and the alpha plane written to the document together determine, and are determined by, the decoded image rows, and both planes are stored.",
  "every width, height and pixel content, for gray+alpha and RGB+alpha",
  "All images.",
  "minigopdf/image_obj_parse.go:paesePng")
p("C43", "The requested text colour is used",
  "When Insert is given a colour, the colour operator written before the text sets that colour (for components 0..255, not all zero).",
  "every colour triple",
  "2^24 colours.",
  "content_text.go:ContentText.toSteram", "minigopdf/cache_content_text.go:cacheContentText.toStream")
p("C44", "Opening a second document forgets the first",
  "Calling OpenFrom on a value that already holds a document makes it hold only the second document: the page list, objects and pending content of the first do not appear in the output.",
  "every pair of documents",
  "Requires comparing whole states over all inputs.",
  "pdft.go:PDFt.OpenFrom", "pdf_parse.go:PDFParse")
p("C45", "Template fields are filled by key",
  "When rendering a template, the text for a key is placed at the field with that key (the last one if repeated); unknown keys change nothing and are not errors.",
  "every field list and key",
  "All field lists.",
  "render/render.go:Render.Text", "render/field_info.go:FieldInfos.toMap")
p("C46", "Open reports malformed input as an error",
  "OpenFrom returns an error rather than crashing or hanging for every byte sequence that is not a readable document, and succeeds on documents whose pages inherit /MediaBox.",
  "every byte sequence",
  "All inputs.",
  "pdf_parse.go:PDFParse", "pdf_parse.go:parsePageSize", "pdf_data.go:PDFData.getPageObjIDs", "pdf_obj_property_data.go:readObjIDFromDictionaryArr")
p("C47", "Nested page trees are read in document order",
  "GetNumberOfPage and every page number used by the API follow the left-to-right order of the leaves of the page tree, for trees of any depth.",
  "every page tree",
  "Unbounded depth and width.",
  "pdf_data.go:PDFData.getPageObjIDs")
p("C48", "Dictionary reading ignores layout",
  "The entries read from a dictionary do not depend on how white space is laid out between its tokens.",
  "every dictionary of names, numbers, references, arrays and nested dictionaries, every layout",
  "All nesting structures and all layouts.",
  "pdf_obj_property_data.go:readProperties", "pdf_obj_property_data.go:parseProps.loop")
p("C49", "Save keeps each resource dictionary free of repeated keys",
  "If every dictionary of the opened document has each key once, then after Save every rewritten resource dictionary has each key once.",
  "every document, including ones where several pages share one resource object",
  "Sharing patterns of arbitrary documents.",
  "crawl.go:crawl.next", "crawl.go:crawl.resultByObjID", "pdf_data.go:PDFData.injectFontsToPDF", "crawl_result.go:loopCrawlResultString")
p("C50", "Font style letters are parsed as a set",
  "SetFont's style string yields bold, italic and underline flags exactly according to which of the letters B, I, U occur in it, in any order and case.",
  "every style string",
  "All strings.",
  "pdft.go:getConvertedStyle")
p("C51", "All pages see every added font",
  "After Save, every page of a document with a flat page tree, whose resources have a /Font entry, can resolve the resource name of every added font.",
  "every document with a flat page tree, every number of fonts",
  "All documents.",
  "pdf_data.go:PDFData.injectFontsToPDF", "crawl.go:crawl.next")
p("C52", "Big-endian readers and writers are inverse",
  "The integer writers used for the embedded font and the integer readers used for the source font are inverse to each other, and writing at a position leaves all other bytes unchanged.",
  "every value in range, every buffer and position",
  "All values and positions.",
  "minigopdf/buff_write.go", "minigopdf/buff.go:Buff.Write", "minigopdf/fontmaker/core/ttfparser.go:TTFParser.ReadUShort", "minigopdf/fontmaker/core/ttfparser.go:TTFParser.ReadULong", "minigopdf/fontmaker/core/ttfparser.go:TTFParser.ReadShort")
p("C53", "Palette images refer to their own palette",
  "For an inserted PNG with a palette, the colour space written for the image refers to an object that holds that image's palette.",
  "every palette PNG and every document",
  "Depends on object numbering of the whole document.",
  "minigopdf/image_obj_parse.go:buildImgProp", "pdft.go:PDFt.InsertImg", "pdf_image_data.go:createImgObjFromBytes")
p("C54", "Alignment places text inside its cell",
  "For horizontal alignment, left-aligned text starts at the cell's left edge, right-aligned text ends at its right edge and centred text has equal space on both sides; vertical alignment places the ascender at the top edge, the descender at the bottom edge or centres both.",
  "every cell size, position and text width (over exact arithmetic)",
  "All sizes and alignment flag combinations.",
  "minigopdf/cache_content_text.go:cacheContentText.calX", "minigopdf/cache_content_text.go:cacheContentText.calY")
p("C55", "Strings are encrypted",
  "With protection set, every string of an object outside streams is written so that decrypting it with the object's key gives the original string.",
  "every object, every string in it, every key",
  "All objects and keys; readers decrypt strings.",
  "pdf_obj_data.go:PDFObjData.encrypt", "pdft.go:PDFt.build")
p("C56", "PNG files are read without crashing",
  "Reading a PNG file ends for every byte sequence, and never crashes on a file that the PNG format allows.",
  "every byte sequence; every PNG file",
  "All files, chunk sizes and images.",
  "minigopdf/image_obj_parse.go:paesePng", "minigopdf/image_obj_parse.go:readInt", "minigopdf/image_obj_parse.go:readBytes")
p("C57", "All data of a PNG file is used",
  "For a PNG file without alpha, the image data stored in the document is the data of all its data chunks, in order, with the file's dimensions, colours and bit depth.",
  "every PNG file of colour type gray or RGB and bit depth up to 8",
  "All files and chunk layouts.",
  "minigopdf/image_obj_parse.go:paesePng")
p("C58", "Explicit black text is black",
  "When Insert is given the colour black, the text is drawn in black, whatever was drawn on the page before.",
  "every page content before the text",
  "Needs the drawing state left by all earlier texts.",
  "content_text.go:ContentText.toSteram", "minigopdf/cache_content_text.go:cacheContentText.toStream")
p("C59", "Numbers in the operators are accurate",
  "Every coordinate and colour component written is a decimal number that reads back to within 0.005 of the value.",
  "every rational value, negative ones included",
  "All values, with carries in rounding.",
  "minigopdf/cache_content_text.go:cacheContentText.toStream", "minigopdf/cache_content_text.go:cacheContentText.drawBorder", "content_img_base64.go:contentImgBase64.toSteram")
p("C60", "Cell borders are the edges of the cell",
  "With cell borders shown, the lines drawn with a text are the four edges of its cell, and without them no line is drawn.",
  "every cell, page height and line width",
  "All sizes.",
  "minigopdf/cache_content_text.go:cacheContentText.drawBorder", "pdft.go:PDFt.ShowCellBorder")
p("C61", "The newest version of an object is used",
  "When a file holds several objects with the same number (it was changed by appending), the last one is the one used.",
  "every object list and object number",
  "All update histories of a file.",
  "pdf_data.go:PDFData.getObjByID")
p("C62", "Only resource dictionaries get image entries",
  "Save writes an /XObject entry only into resource dictionaries; the catalog, the page tree and page dictionaries get none.",
  "every document and set of inserted images",
  "Depends on the shape of all objects of the document.",
  "pdf_data.go:PDFData.injectImgsToPDF", "crawl.go:crawl.run")
p("C63", "The width of kerned text is the width drawn",
  "With any kerning, the width used to align a text equals the advance of the operators written for it: the widths of the glyphs shown minus the adjustments in the arrays.",
  "every font, kerning and text rise override, and text",
  "All texts and all user-supplied kerning functions.",
  "minigopdf/cache_content_text.go:createContent", "minigopdf/cache_content_text.go:kern")
p("C64", "Save keeps the resources of every page",
  "Every entry of the resource dictionary of a page, other than the lists of fonts and images, has the same value after Save, and every named font refers to the same object.",
  "every document with a flat page tree, every placement of resource dictionaries (in the page, in objects of their own, shared), every iteration order of the maps",
  "All documents and all iteration orders.",
  "pdf_data.go:PDFData.injectFontsToPDF", "pdf_data.go:PDFData.injectImgsToPDF", "crawl.go:crawl.next", "crawl_result.go:loopCrawlResultString")

p("C65", "Save keeps the pages",
  "The saved document has the same pages in the same order as the document before, and every entry of the catalog, the page tree and the pages, other than resources, keeps its value.",
  "every document with a flat page tree, every sequence of calls before Save, every iteration order of the maps",
  "All documents and all iteration orders.",
  "pdft.go:PDFt.build", "pdf_data.go:PDFData.injectFontsToPDF", "pdf_data.go:PDFData.injectImgsToPDF", "pdf_data.go:PDFData.injectContentToPDF")
p("C66", "Save leaves unrelated objects alone",
  "An object that is neither the catalog, the page tree, a page, resources or a font list of a page, nor the content of a page is the same after Save.",
  "every document with a flat page tree, every sequence of calls before Save, every iteration order of the maps",
  "All documents and all iteration orders.",
  "pdft.go:PDFt.build", "pdf_data.go:PDFData.injectFontsToPDF", "pdf_data.go:PDFData.injectImgsToPDF", "pdf_data.go:PDFData.injectContentToPDF")

p("C67", "Streams do not matter to the reader",
  "Opening a saved document gives the objects back whatever bytes the streams contain.",
  "every document, every content of its streams",
  "The streams that break reading are those nobody thinks of.",
  "pdf_parse.go:parseXref", "pdf_parse.go:parseTrailer", "pdf_obj_data.go:PDFObjData.parse")

p("C68", "Protection changes only the bytes of streams",
  "Saving with protection writes the objects saving without protection would have written, with the same numbers and names, except that the bytes of streams are enciphered with the key of their object; it crashes only if saving without protection does, or if an object has the word stream without endstream after it.",
  "every document, every sequence of calls, every password and permission word",
  "All documents and keys; the pieces (RC4, object keys) are tested separately at best.",
  "pdft.go:PDFt.build", "pdf_obj_data.go:PDFObjData.encrypt", "pdft.go:PDFt.SetProtection")
p("C69", "Saving a protected document again",
  "Every Save of a protected document writes streams that are deciphered to the streams of the document.",
  "every document, every number of calls of Save",
  "A test saves once.",
  "pdft.go:PDFt.build", "pdf_obj_data.go:PDFObjData.encrypt")

p("C70", "A viewer paints what was there and then what was asked for",
  "Reading the content of a saved page as a viewer does paints the marks the page had before, followed by the inserted texts and images in the order of the calls: every glyph of a text in the font, size and colour asked for, kerned and raised as the overrides say, on a line placed in its cell by the alignment, with its underline and border; every image in the rectangle asked for.",
  "every document with a flat page tree, every sequence of calls, every font, every text, every way showing a glyph moves the text position",
  "The output is a program in another language; a test compares bytes or pictures of a few pages.",
  "content_text.go:ContentText.toSteram", "minigopdf/cache_content_text.go:createContent", "content_img_base64.go:contentImgBase64.toSteram", "pdf_data.go:PDFData.injectContentToPDF")
p("C71", "The page's own content does not move what is inserted",
  "What is inserted appears at the place asked for on the page, whatever transformations and clipping paths the page's own content leaves behind.",
  "every document, every content of its pages",
  "All content streams.",
  "pdf_data.go:PDFData.injectContentToPDF")
p("C72", "Cell borders are drawn in their style on every page",
  "After ShowCellBorder the borders of all cells are dotted lines 0.1 units wide, on whatever page the cell is.",
  "every document, every sequence of calls",
  "The pages after the first.",
  "pdft.go:PDFt.ShowCellBorder", "content_line_style.go:ContentLineStyle.page")
p("C73", "The text rise of one font does not affect texts in another",
  "A text in a font without an override of the text rise is drawn without a rise, whatever was drawn before it.",
  "every sequence of calls, every override",
  "All combinations of fonts.",
  "minigopdf/cache_content_text.go:createContent", "pdft.go:PDFt.TextriseOverride")

p("C74", "Image objects show the image of the file",
  "The object written for an inserted image can be read by a PDF reader as an image of the size, colour space and depth of the file whose samples are those of the file; alpha becomes a soft mask of the same size that the image refers to, a transparent colour becomes a colour mask; the objects are in the saved document.",
  "every PNG and JPEG file, every document",
  "The object combines dictionary, filter parameters and data, each of which only a viewer interprets; every pixel of every image is concerned.",
  "minigopdf/image_obj_parse.go:buildImgProp", "minigopdf/image_obj.go:ImageObj.Build", "minigopdf/image_obj.go:ImageObj.CreateSMask", "pdf_image_data.go:PDFImageData.setImgObj", "pdft.go:PDFt.InsertImg")
p("C75", "Embedded fonts are complete",
  "Under the name used in the drawn text a page finds a composite font whose objects can be read by a PDF reader and refer to each other: descendant font with the width of every inserted character, map to characters, descriptor with the metrics of the font to the nearest unit, and font file with its lengths.",
  "every font, every name, every sequence of calls, every save",
  "The objects are text in another language, spread over five objects whose numbers depend on the document.",
  "pdf_font_data.go:PDFFontData.build", "minigopdf/subset_font_obj.go:SubsetFontObj.Build", "minigopdf/cid_font_obj.go:CIDFontObj.Build", "minigopdf/subfont_descriptor_obj.go:SubfontDescriptorObj.Build", "minigopdf/pdf_dictionary_obj.go:PdfDictionaryObj.Build")

p("C76", "Saving succeeds",
  "A document that was opened can be saved after any edits: Save writes a file, and does not fail, crash or run forever.",
  "every document, every sequence of calls, every font and image",
  "Save goes through every object reachable from the catalog, and each kind of entry on the way can make it fail.",
  "pdft.go:PDFt.Save", "pdft.go:PDFt.build", "pdf_data.go:PDFData.injectFontsToPDF", "pdf_data.go:PDFData.injectImgsToPDF", "pdf_data.go:PDFData.injectContentToPDF", "crawl_result_font.go:crawlResultFonts.parse")

p("C77", "The font is read as the file says",
  "AddFont reads a TrueType file as the OpenType specification says: metrics, widths, the glyphs of characters and the outlines are those of the file; every sound file is accepted; other bytes give an error, not a crash or a hang; and an embedded glyph has the outline it has in the file.",
  "every byte string given as a font file",
  "The parser reads a dozen tables at positions computed from other tables; any number in the file can be wrong.",
  "minigopdf/fontmaker/core/ttfparser.go:TTFParser.parse", "minigopdf/fontmaker/core/ttfparser.go:TTFParser.ParseCmap", "minigopdf/fontmaker/core/ttfparser.go:TTFParser.ParseHmtx", "minigopdf/fontmaker/core/ttfparser_cmap_other_format.go:TTFParser.ParseCmapFormat12", "pdft.go:PDFt.AddFontFrom")

p("C78", "Dictionaries are read and rewritten as the standard says",
  "For every dictionary in simple notation (no comments, strings without slashes, brackets and double blanks, no name directly before a parenthesis) whose text the independent reader of ISO 32000 objects takes for the entries d: the dictionary reader of the program succeeds, finds the keys of d in order each with text that says the same value (a name as value becomes a key of its own), looks up exactly the keys of d, and the text it writes again for these entries is read as d by the independent reader. Without the restrictions this fails: double blanks in strings are lost, slashes in strings get blanks, comments swallow the rest, keys directly before a string are not found.",
  "for every text, white space, nesting, stream or none after the dictionary",
  "The texts are unbounded, and nesting, white space and kinds of values combine freely; the reader is a state machine over characters with a regular expression before it, and agreement with the standard is about all texts.",
  "pdf_obj_property_data.go:readProperties", "pdf_obj_property_data.go:parseProps.loop", "pdf_obj_data.go:PDFObjData.setProperties")

p("C79", "Pages are found where the standard says",
  "If the catalog and the nodes of a document form a page tree of any shape for an independent reader of ISO 32000 objects and page trees (7.7.3) that knows nothing of the program, and their dictionaries are simply written, GetNumberOfPage is the number of leaves of this tree and the pages are its leaves in document order. Without the restriction this fails: pages are lost if the array of kids is an object of its own, or if the word stream is in a string before it.",
  "for every document, every tree, every other entry in the dictionaries",
  "Trees and dictionaries are unbounded, and the statement compares the program with a second reader on all of them.",
  "pdf_data.go:PDFData.getPageObjIDs", "pdf_data.go:PDFData.getPageCrawl", "pdf_obj_property_data.go:readProperties", "pdf_obj_property_data.go:readObjIDFromDictionaryArr", "pdf_obj_property_data.go:readObjIDFromDictionary")

p("C80", "Page operations as an independent reader sees them",
  "For every document whose page tree (of any shape) is simply written, and every sequence of RemovePage and DuplicatePageAfter calls that succeed: an independent reader of ISO 32000 page trees that knows nothing of the program finds the pages that the same edits of the plain list of pages give, each with the entries, the content stream and the inherited attributes (7.7.3.4) it had; the root says their number, names exactly them and has its other entries unchanged; removing a page in range and duplicating a page with one content stream to a position in range succeed. /Parent of the pages names the node above them.",
  "for every document, every page tree, every sequence of operations",
  "Histories and trees are unbounded, and what is compared is the meaning of the written objects for a second reader.",
  "pdft.go:PDFt.RemovePage", "pdft.go:PDFt.DuplicatePageAfter", "pdft.go:PDFt.setPages", "pdf_data.go:PDFData.getPageObjIDs", "pdf_obj_data.go:PDFObjData.setProperties", "pdf_obj_property_data.go:readProperties")

p("C81", "Opening reads the objects that the cross-reference table says",
  "For every file with one cross-reference table (ISO 32000-1, 7.5.4; any number of subsections, any of the three ends of line), a trailer that names the catalog, and objects of generation 0: OpenFrom keeps exactly the rows of the table, and exactly the objects that stand at the offsets of the rows in use, under the numbers the table gives them and in its order, with their bytes unchanged. If these objects form a page tree and every page has a /MediaBox of numbers, opening succeeds, and the pages and their sizes are those an independent reader finds. Files with later updates (/Prev) are read in their latest version.",
  "for every such file",
  "Files, tables and page trees are unbounded, and the statement compares the program with a second description of the file format.",
  "pdft.go:PDFt.OpenFrom", "pdf_parse.go:PDFParse", "pdf_parse.go:parseXref", "pdf_parse.go:parseTrailer", "pdf_parse.go:parseObjOnlyKeywordN", "pdf_parse.go:parsePageSize", "pdf_obj_data.go:PDFObjData.parse", "xref_data.go:XrefData.parse", "pdf_data.go:objIDFromStartObjLine")

p("C82", "A session of calls amounts to the fonts and overrides asked for",
  "After any sequence of calls on a value, whatever their outcomes: the fonts known by name are those added by successful AddFont calls since the document was opened, each with the file it was added with and with the overrides of the last KernOverride and TextriseOverride calls for its name; the current font and size are those of the last successful SetFont; no other call changes any of this. AddFont succeeds exactly if the name is free and the file can be parsed, the others exactly if the name is known. Contents once added are never removed or changed by later calls.",
  "every sequence of calls of every kind, every state",
  "Sequences of calls are unbounded, and fonts are shared between map, list and contents, so that a write through one name could reach another.",
  "pdft.go:PDFt.AddFontFrom", "pdft.go:PDFt.SetFont", "pdft.go:PDFt.TextriseOverride", "pdft.go:PDFt.KernOverride", "pdft.go:PDFt.Insert", "pdft.go:PDFt.build")

p("C83", "Saving keeps the document as an independent reader sees it",
  "After Save, an independent reader of the objects finds the page tree that was there before, of any shape. The dictionaries of the catalog, of the page tree and of the resources have the same entries in the sense of the standard, except that the dictionary of fonts has the old fonts, in order and under their names, followed by the new ones, and the dictionary of images the old images followed by others, with the names of the new ones. The objects of all new fonts and images are there, the content of each page is what it was followed by what was drawn on it in the order of the calls, and every other object is unchanged.",
  "every document of the usual form with a page tree of any depth, every state, every order of map iteration, every outcome of the libraries",
  "The saved dictionaries are put together from pieces of text found on three different walks through the document, in an order that differs between runs.",
  "pdft.go:PDFt.build", "pdf_data.go:PDFData.injectFontsToPDF", "pdf_data.go:PDFData.injectImgsToPDF", "pdf_data.go:PDFData.injectContentToPDF", "crawl.go:crawl.run", "crawl_result.go:crawlResult.String")

p("C84", "From file to file, only the asked changes happen",
  "Open a PDF file, perform any sequence of calls and save. An independent reader of the written file finds a cross-reference table that names exactly the objects written, a trailer that names the same catalog, and a page tree whose pages are those of the file that was opened, edited as the calls say: RemovePage takes one page out, RemoveOtherPages leaves one, DuplicatePageAfter puts a copy after another page, calls that fail and all other calls leave the pages alone. Every page has its entries, apart from the fonts and images added, and its own content, followed by what was drawn on the page that stood at its place at the time of saving, in the order of the calls. The objects of all fonts and images that were added are in the file.",
  "every file of the usual form, every sequence of calls with any arguments and outcomes, every order of map iteration, every outcome of the libraries",
  "The result depends on the whole history, on text surgery on dictionaries of any content, and on map iteration; tests look at some files and short histories.",
  "pdft.go:PDFt.OpenFrom", "pdft.go:PDFt.DuplicatePageAfter", "pdft.go:PDFt.RemovePage", "pdft.go:PDFt.RemoveOtherPages", "pdft.go:PDFt.setPages", "pdft.go:PDFt.SaveTo", "pdft.go:PDFt.build", "pdft.go:PDFt.toStream", "pdft.go:PDFt.xref", "pdf_parse.go:PDFParse", "pdf_data.go:PDFData.injectContentToPDF")

p("C85", "GoPdf writes a sound file",
  "Whatever GoPdf writes, an independent reader of the file structure (ISO 32000-1, 7.5) finds in it one cross-reference table at the place named at the end of the file, in which object 0 is free and the row of each object gives the position at which the object stands, and a trailer whose dictionary has the number of entries, the catalog, the dictionary of the protection if there is one, and the texts of the document information as text strings.",
  "every state of the generator from which the file can be written, every compression and every content",
  "Objects and contents are unbounded, and every offset depends on the length of everything before it.",
  "minigopdf/gopdf.go:GoPdf.compilePdf", "minigopdf/gopdf.go:GoPdf.xref", "minigopdf/gopdf.go:GoPdf.formatXrefline", "minigopdf/gopdf.go:GoPdf.bindInfo", "minigopdf/gopdf.go:encodeUtf8", "minigopdf/gopdf.go:GoPdf.prepare")

p("C86", "What a session with GoPdf draws is what the file shows",
  "Make any sequence of calls of GoPdf (pages, lines, rectangles, ovals, curves, colours, line styles, fonts, margins, positions, ...) and write the document. An independent reader of objects finds a catalog and a page tree with the pages asked for, in this order, with the sizes asked for and their number; an independent interpreter of content streams paints on each page, in the order of the calls, what was asked for while it was the last page, to half a hundredth of a point, measured from the top of the page, with the colours and line styles that were set on it. Writing never fails, whatever the calls.",
  "every sequence of calls with any arguments",
  "Sequences of calls are unbounded, and the meaning of the written page depends on all of them.",
  "minigopdf/gopdf.go:GoPdf.AddPage", "minigopdf/gopdf.go:GoPdf.AddPageWithOption", "minigopdf/gopdf.go:GoPdf.Line", "minigopdf/gopdf.go:GoPdf.RectFromLowerLeft", "minigopdf/gopdf.go:GoPdf.RectFromUpperLeft", "minigopdf/gopdf.go:GoPdf.Oval", "minigopdf/gopdf.go:GoPdf.Curve", "minigopdf/gopdf.go:GoPdf.SetLineWidth", "minigopdf/gopdf.go:GoPdf.SetLineType", "minigopdf/gopdf.go:GoPdf.SetGrayFill", "minigopdf/gopdf.go:GoPdf.SetStrokeColor", "minigopdf/gopdf.go:GoPdf.prepare", "minigopdf/gopdf.go:GoPdf.getContent", "minigopdf/content_obj.go:ContentObj.build", "minigopdf/page_obj.go:PageObj.build", "minigopdf/pages_obj.go:PagesObj.build")

p("C87", "The texts and images of a session with GoPdf are shown where and how they were asked for",
  "Make any sequence of calls of GoPdf that all succeed, with texts, cells and images among them, and write the document. On each page an independent interpreter of content streams shows, in the order of the calls, every text in the glyphs that its font gives to its characters, in the font, size and colour set, at the position (or where the alignment in the cell says), underlined if the style says so, with the edges of the cell that were asked for, and every image in its rectangle, measured from the top of the page. After a text the position is at its end, after a cell at its right edge or below, as the option says. Overriding the kerning of a font has an effect, and measuring a text gives its width.",
  "every sequence of successful calls with any arguments, fonts and images",
  "A text may continue an earlier one depending on all the settings in between, and what it looks like depends on the whole session.",
  "minigopdf/gopdf.go:GoPdf.Text", "minigopdf/gopdf.go:GoPdf.CellWithOption", "minigopdf/gopdf.go:GoPdf.ImageByHolder", "minigopdf/gopdf.go:GoPdf.SetFontWithStyle", "minigopdf/gopdf.go:GoPdf.KernOverride", "minigopdf/gopdf.go:GoPdf.MeasureTextWidth", "minigopdf/content_obj.go:ContentObj.AppendStreamText", "minigopdf/content_obj.go:ContentObj.AppendStreamSubsetFont", "minigopdf/list_cache_content.go:listCacheContent.appendContentText", "minigopdf/cache_content_text.go:cacheContentText.isSame", "minigopdf/cache_content_text.go:cacheContentText.toStream", "minigopdf/cache_content_text.go:cacheContentText.createContent", "minigopdf/cache_content_image.go:cacheContentImage.toStream")

p("C88", "The texts and images of a document written by GoPdf find their fonts and images in its resources",
  "Make any sequence of calls of GoPdf that all succeed and write the document. A text that is written is in the first font added with the family and style chosen last. In the file, the resources of the pages give one object for each name used in the contents: for a text a composite font of its family, with the font file, the widths, the map to Unicode and the descriptor made from the file that was added, containing every character of the text under the number that stands in the content, with its width; for an image the object made from the file given when it was first used. Every image that is accepted can be written, the mask of an image with alpha is the object named in /SMask, and compression levels that are too high mean the best compression.",
  "every sequence of successful calls with any arguments, fonts and images",
  "Names, numbers of objects and positions in lists are counted separately in several places, and they agree or not depending on the whole session.",
  "minigopdf/gopdf.go:GoPdf.AddTTFFontByReaderWithOption", "minigopdf/gopdf.go:GoPdf.SetFontWithStyle", "minigopdf/gopdf.go:GoPdf.ImageByHolder", "minigopdf/gopdf.go:GoPdf.SetCompressLevel", "minigopdf/gopdf.go:GoPdf.addObj", "minigopdf/procset_obj.go:ProcSetObj.build", "minigopdf/procset_obj.go:RelateFonts.IsContainsFamilyAndStyle", "minigopdf/unicode_map.go:UnicodeMap.build", "minigopdf/cid_font_obj.go:CIDFontObj.build", "minigopdf/image_obj_parse.go:buildImgProp", "minigopdf/device_rgb_obj.go:DeviceRGBObj.build")
p("C89", "Every text of a document made by GoPdf has the look and the place that were in force when it was begun",
  "Make any sequence of calls of GoPdf that all succeed, with a page added before the first text. Every text on the pages was begun by one of the calls, in the cell asked for there, and has the size, style, colour, grey and line width set last before that call. It stands where the pen was: at the margins after AddPage, at the values of SetX and SetY, one line further at the left margin after Br, behind a text, to the right of or below a cell as its option says; line drawing and images do not move the pen. A text is added to the text before it exactly if that is the last thing on the page, has no rectangle, has the same font, size, style, colours and height, and SetX was not called in between.",
  "every sequence of successful calls with any arguments and fonts",
  "The position is the sum of what all calls before have done, and every kind of call may disturb it.",
  "minigopdf/gopdf.go:GoPdf.SetX", "minigopdf/gopdf.go:GoPdf.SetY", "minigopdf/gopdf.go:GoPdf.Br", "minigopdf/gopdf.go:GoPdf.AddPageWithOption", "minigopdf/gopdf.go:GoPdf.SetFontWithStyle", "minigopdf/gopdf.go:GoPdf.SetTextColor", "minigopdf/gopdf.go:GoPdf.Text", "minigopdf/gopdf.go:GoPdf.CellWithOption", "minigopdf/content_obj.go:ContentObj.AppendStreamText", "minigopdf/content_obj.go:ContentObj.AppendStreamSubsetFont", "minigopdf/list_cache_content.go:listCacheContent.appendContentText", "minigopdf/cache_content_text.go:cacheContentText.isSame")
p("C90", "Letters of a font that is used with its kerning are moved by the distances in the font file",
  "Add a font file to GoPdf with kerning. If the file has a kerning table in the format 0 of the OpenType specification, the font is accepted, and two letters one after the other are moved by the distance the table has for their glyphs, or not at all if it has none; all subtables of the table count. Without a kerning table nothing is moved. Tables in other formats are not taken for pairs.",
  "every font file, every pair of glyphs",
  "The table is found through the directory of the file and its layout depends on counts in it; a test font has one of many layouts.",
  "minigopdf/fontmaker/core/ttfparser_kern.go:TTFParser.Parsekern", "minigopdf/fontmaker/core/ttfparser_kern.go:TTFParser.parsekernSubTable", "minigopdf/fontmaker/core/ttfparser_kern.go:TTFParser.parsekernSubTableFormat0", "minigopdf/cache_content_text.go:kern", "minigopdf/subset_font_obj.go:SubsetFontObj.KernValueByLeft")
p("C91", "A document written by GoPdf can be opened by pdft",
  "Make any sequence of calls of GoPdf that all succeed, write the document, and give the bytes to Open. The document is opened: it has the objects that were written, the pages of the session in their order, and the size of each page as it was asked for, whether with AddPageWithOption or with the size of the document.",
  "every sequence of successful calls with any arguments",
  "Writer and reader were written apart from each other, and the reader searches the file with patterns that any written byte may disturb.",
  "pdft.go:PDFt.OpenFrom", "pdf_parse.go:PDFParse", "pdf_parse.go:parsePageSize", "minigopdf/gopdf.go:GoPdf.compilePdf", "minigopdf/gopdf.go:GoPdf.xref", "minigopdf/page_obj.go:PageObj.build", "minigopdf/pages_obj.go:PagesObj.build", "minigopdf/catalog_obj.go:CatalogObj.build")
p("C92", "A protected document of GoPdf is, to whoever knows the password, the document without protection",
  "Start GoPdf with a protection and make any sequence of calls that all succeed. Whoever knows the user password computes the key from the dictionary that /Encrypt in the trailer names; /U confirms it. With the key the streams are deciphered, each with the key of its object, and the outcome is the document the same calls make without protection: pages, texts, fonts and images are the same. Strings are enciphered like streams.",
  "every sequence of successful calls, every pair of passwords and all permissions",
  "Each kind of object enciphers its own data with a number it is given; one wrong number and only readers with the password see a broken page.",
  "minigopdf/gopdf.go:GoPdf.Start", "minigopdf/gopdf.go:GoPdf.compilePdf", "minigopdf/gopdf.go:GoPdf.prepare", "minigopdf/gopdf.go:GoPdf.xref", "minigopdf/pdf_protection.go:PDFProtection.setProtection", "minigopdf/pdf_protection.go:PDFProtection.objectkey", "minigopdf/content_obj.go:ContentObj.build", "minigopdf/image_obj.go:ImageObj.build", "minigopdf/pdf_dictionary_obj.go:PdfDictionaryObj.build", "minigopdf/unicode_map.go:UnicodeMap.build", "minigopdf/encryption_obj.go:EncryptionObj.build")
p("C93", "A protected file saved by pdft is, to whoever knows the password, the file saved without protection",
  "Open a file, make any calls that remove and copy pages, insert texts and images and add fonts, ask for protection, and save. In the file that comes out, whoever knows the user password asked for last computes the key from the dictionary that /Encrypt in the trailer names, and /U confirms it; the streams are deciphered with the keys of their objects, and the outcome has the pages the calls ask for, with their entries, contents, fonts and images, as if there were no protection.",
  "every file in usual notation, every sequence of calls, all passwords and permissions",
  "Protection is the last step of a save that renumbers and rewrites objects; a wrong number or key shows only in a reader that asks for the password.",
  "pdft.go:PDFt.SetProtection", "pdft.go:PDFt.build", "pdft.go:PDFt.toStream", "pdft.go:PDFt.xref", "pdf_obj_data.go:PDFObjData.encrypt", "minigopdf/pdf_protection.go:PDFProtection.setProtection", "minigopdf/encryption_obj.go:EncryptionObj.build")
p("C94", "What is seen on the pages of a saved file is what was on them and what was inserted",
  "Open a file, make any calls that remove and copy pages, insert texts and images and add fonts, and save, with or without protection. A viewer of the file that comes out finds the pages the calls ask for, in their order. On each page it paints what the page painted before and then, in the order of the calls, the texts and images inserted on that page and nothing else: each text with its letters, font, size, colour and place, each image with its place and size. The fonts and images are found under the names used. On a page nothing was inserted on the content is untouched.",
  "every file in usual notation with page trees of any shape, every sequence of calls, every page",
  "It is the sum of reading, editing, numbering, naming, drawing and writing; each may be right by itself and the page still be wrong.",
  "pdft.go:PDFt.OpenFrom", "pdft.go:PDFt.Insert", "pdft.go:PDFt.InsertImg", "pdft.go:PDFt.SaveTo", "pdft.go:PDFt.build", "pdf_data.go:PDFData.injectContentToPDF", "pdf_data.go:PDFData.injectFontsToPDF", "pdf_data.go:PDFData.injectImgsToPDF", "content_text.go:ContentText.toSteram", "content_img_base64.go:contentImgBase64.toSteram")
p("C95", "A file that is protected already is refused or stays readable",
  "Open a file whose trailer names a dictionary of protection (/Encrypt). Either opening returns an error, or, after any calls and a save, the file that comes out can still be read by whoever knows the password: its trailer names the dictionary as well, or its streams are in the clear.",
  "every file in usual notation whose trailer has /Encrypt, every sequence of calls",
  "Tests use files without protection; the library returns no error at any step, and only a viewer shows that the pages have become noise.",
  "pdf_parse.go:parseTrailer", "pdft.go:PDFt.OpenFrom", "pdft.go:PDFt.SaveTo", "pdft.go:PDFt.xref")
p("C96", "Wrapped text fills its cell as its alignment says",
  "The lines that InsertWrapText draws begin where the alignment says: aligned to the top, the first line with the first word is at the top of the cell and the others follow below it; aligned to the middle, the first and the last line are equally far from the place a single line has; aligned to the bottom, the last line is at the place a single line has. No empty line is drawn between the words of a text.",
  "every text and token list, every font and size, every cell and alignment",
  "The place of a line depends on the number of lines, and this on the widths of all tokens.",
  "pdft.go:PDFt.InsertWrapText", "pdft.go:PDFt.MeasureTextWidth")
p("C97", "Nothing that is inserted is lost",
  "If an insertion on a page succeeds and the document is saved, then the page shows what was inserted, together with all other insertions on it, and no other page shows it; if the document has no such page, or the page cannot be drawn on, the insertion or the save returns an error.",
  "every document, every page number, pages with and without content, pages that share content",
  "The loss is silent: no call returns an error, and only documents of other programs have such pages.",
  "pdf_data.go:PDFData.injectContentToPDF", "pdft.go:PDFt.Insert", "pdft.go:PDFt.InsertImg", "pdft.go:PDFt.pageHeight")
p("C98", "The content of a page survives whatever its filter",
  "Saving a document leaves the page content that was there decodable: if the stream of a page names a filter other than /FlateDecode (/ASCIIHexDecode, /ASCII85Decode, /LZWDecode, /RunLengthDecode), then after the save a reader gets the same operators from it, followed by what was drawn; or the save returns an error.",
  "every document with a flat page tree, every filter, every page",
  "Tests use streams that are compressed with /FlateDecode or not at all.",
  "pdf_data.go:PDFData.injectContentToPDF", "pdf_data.go:extractStream")
p("C99", "Removed pages are not in the saved file",
  "After RemovePage or RemoveOtherPages and a save, the saved file does not contain the removed pages: neither the object of a removed page nor its content stream is among its objects, unless another page refers to it.",
  "every document, every sequence of calls, every removed page",
  "Viewers show the right pages; only the bytes of the file show that the removed ones can be restored.",
  "pdft.go:PDFt.RemovePage", "pdft.go:PDFt.RemoveOtherPages", "pdft.go:PDFt.setPages", "pdft.go:PDFt.toStream")
p("C100", "The line of an underlined text is below the text",
  "A text in an underlined style gets a line: a filled rectangle that begins where the text begins and is as long as the text, whose top is at the distance from the base line that the font file gives, with the thickness that the font file gives. This holds for every alignment of the text in its cell.",
  "every font, text, size, cell and alignment",
  "The line looks right for texts at the top left of a cell of just their size, which is what one tries.",
  "minigopdf/cache_content_text.go:cacheContentText.underline", "minigopdf/cache_content_text.go:cacheContentText.toStream", "content_text.go:ContentText.toSteram")
with open("/verif/properties.jsonl", "w") as f:
    for x in P: f.write(json.dumps(x) + "\n")
print(len(P))
